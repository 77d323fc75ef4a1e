import Verif.Home.Model
/-
Model of the queries about the system and the user (src/core/System.cpp, the Linux branches): `language`, `userId`, `userFullName`,
`macAddress1`.

The operating system is given by what it answers: environment variables, installed locales, the entries of the user database, the
list of network interfaces.  Texts are byte strings without NUL.  `setlocale` is the one of the C library (ISO C 7.11.1.1, POSIX 8.2 for
the order of the variables, glibc for the names of the categories and for the name of a locale whose categories differ).
-/
namespace Verif.Sys
open Verif Verif.Str
open Verif.Home (ofCString getenv)

/-- the characters of a program text (all below 128), one byte each -/
def asc (s : String) : List Byte := s.toList.map fun c => BitVec.ofNat 8 c.toNat

/-- the environment -/
abbrev Env := String → Option (List Byte)

/-- the locale of a process: one name for each of `cats` -/
abbrev Locale := List (List Byte)

/-- the categories of glibc, in its order (locale/categories.def) -/
def cats : List String :=
  ["LC_CTYPE", "LC_NUMERIC", "LC_TIME", "LC_COLLATE", "LC_MONETARY", "LC_MESSAGES", "LC_PAPER", "LC_NAME", "LC_ADDRESS", "LC_TELEPHONE",
   "LC_MEASUREMENT", "LC_IDENTIFICATION"]

/-- a variable that is set, and not to the empty text -/
def setVar (env : Env) (k : String) : Option (List Byte) :=
  match env k with
  | some (b :: l) => some (b :: l)
  | _ => none

/-- POSIX 8.2: which variable decides about a category -/
def resolve (env : Env) (cat : String) : List Byte :=
  match setVar env "LC_ALL" with
  | some n => n
  | none =>
    match setVar env cat with
    | some n => n
    | none =>
      match setVar env "LANG" with
      | some n => n
      | none => asc "C"

/-- `POSIX` is another name of the locale `C` -/
def canon (n : List Byte) : List Byte := if n = asc "POSIX" then asc "C" else n

/-- what the environment asks for -/
def envLocale (env : Env) : Locale := cats.map fun c => canon (resolve env c)

/-- `setlocale(LC_ALL, "")`: nothing happens (null pointer) unless every locale asked for is installed; `C` always is -/
def setEnvLocale (installed : List Byte → Bool) (env : Env) (cur : Locale) : Locale :=
  if (envLocale env).all (fun n => n == asc "C" || installed n) then envLocale env else cur

/-- the names, with the categories -/
def composite : List String → Locale → List Byte
  | [], _ => []
  | _, [] => []
  | [c], n :: _ => asc c ++ asc "=" ++ n
  | c :: cs, n :: ns => asc c ++ asc "=" ++ n ++ asc ";" ++ composite cs ns

/-- `setlocale(LC_ALL, nullptr)`: one name if all categories agree, otherwise all of them -/
def localeName (l : Locale) : List Byte :=
  match l with
  | [] => []
  | n :: ns => if ns.all (· == n) then n else composite cats (n :: ns)

/-- the locale of a process at its start -/
def initial : Locale := cats.map fun _ => asc "C"

/-- System.cpp:71-72 -/
def cutDot (lang : Str) : Res Str := do
  let i ← indexOfChar lang 0x2E 0
  if i > 0 then substring lang 0 i else .ok lang

/-- System.cpp:42, 62-74 `language`; the messages on the console are left out.  The second component is the locale of the process
afterwards. -/
def language (installed : List Byte → Bool) (env : Env) (cur : Locale) : Res (Str × Locale) := do
  let l := setEnvLocale installed env cur
  let lang ← ofCString (some (localeName l ++ [0]))
  let r ← cutDot lang
  return (r, l)

/-- System.cpp:193, 201 `userId` -/
def userId (env : Env) : Res Str := ofCString (getenv (env "USER"))

/-- an entry of the user database: `pw_name` and `pw_gecos` (which may be the null pointer) -/
structure Passwd where
  name : List Byte
  gecos : Option (List Byte)

/-- System.cpp:214, 222-230 `userFullName`; `db` is `getpwuid`, `euid` the effective user of the process -/
def userFullName (db : Nat → Option Passwd) (euid : Nat) : Res Str :=
  match db euid with
  | some pw => ofCString (getenv pw.gecos)
  | none => ofCString (some (asc "userFullName Not Found" ++ [0]))

/-- the address of an interface: `sockaddr_ll` with `sll_protocol` (as it lies in memory, little endian) and `sll_addr`, or another family -/
inductive Addr where
  | packet (protocol : BitVec 16) (mac : Fin 8 → Byte)
  | other

/-- `htons(ETH_P_IP)` on a little endian machine -/
def ipProtocol : BitVec 16 := 0x0008

/-- a digit of `%x` -/
def hexDigit (n : Nat) : Byte := if n < 10 then BitVec.ofNat 8 (48 + n) else BitVec.ofNat 8 (87 + n)

/-- `%02x` of an unsigned char -/
def hex2 (b : Byte) : List Byte := [hexDigit (b.toNat / 16), hexDigit (b.toNat % 16)]

/-- System.cpp:307-308: six bytes, 17 characters, which together with the NUL fit exactly -/
def macText (m : Fin 8 → Byte) : List Byte :=
  hex2 (m 0) ++ asc ":" ++ hex2 (m 1) ++ asc ":" ++ hex2 (m 2) ++ asc ":" ++ hex2 (m 3) ++ asc ":" ++ hex2 (m 4) ++ asc ":" ++ hex2 (m 5)

/-- System.cpp:299-312: the loop over the interfaces; `ifa_addr` may be the null pointer (`none`), which is not tested -/
def findMac : List (Option Addr) → Res (List Byte)
  | [] => .ok []
  | none :: _ => .error .ub
  | some .other :: rest => findMac rest
  | some (.packet p m) :: rest => if p = ipProtocol then .ok (macText m) else findMac rest

/-- System.cpp:255, 289-316 `macAddress1`; `none`: `getifaddrs` failed -/
def macAddress1 (ifaces : Option (List (Option Addr))) : Res Str :=
  match ifaces with
  | none => ofCString (some [0])
  | some l => do
    let b ← findMac l
    ofCString (some (b ++ [0]))

end Verif.Sys
