import Verif.Charset.Pages
import Verif.Log.Monitor
/-
C100: `System::log` and the settings of it (System.cpp:34-38, 95-190).
-/
namespace Verif.Log
open Verif

abbrev Text := List (BitVec 16)

def lit (s : String) : Text := s.toList.map fun c => BitVec.ofNat 16 c.toNat

/-- System.h:43-49 -/
inductive Level where
  | debug
  | information
  | warning
  | error
deriving DecidableEq

def Level.num : Level → Nat
  | .debug => 0
  | .information => 1
  | .warning => 2
  | .error => 3

/-- System.cpp:35-38: the settings, the last error (`none` while `String::operator=` has freed the old text and not yet written the
new one), and what was written to the console -/
structure Data where
  date : Bool
  label : Level
  error : Option Text
  console : List Byte
deriving DecidableEq

/-- String.cpp:1167-1175: the text in Windows-1252, as a C string: the end is the first zero byte.  Windows-1252 is what is used
unless `setConsoleCharset` was called. -/
def cout (t : Text) : List Byte := (Charset.win1252Encode t).takeWhile (· ≠ 0)

/-- Types.h:42-48 -/
def txtReset : Text := lit "\x1b[0m"
def txtBold : Text := lit "\x1b[1m"
def txtRed : Text := lit "\x1b[31m"
def txtYellow : Text := lit "\x1b[33m"

/-- calls; `stamp` is the date as text at that moment (`jm::Date().toString()`) -/
inductive Call where
  | log (stamp message : Text) (level : Level)
  | enableDate (b : Bool)
  | enableLabel (l : Level)

variable (tr : Text → Text)

/-- System.cpp:117-139: colour -/
def colour : Level → Text
  | .error => txtBold ++ txtRed
  | .warning => txtBold ++ txtYellow
  | _ => []

/-- System.cpp:121, 127, 132, 136 -/
def labelOf : Level → Text
  | .error => tr (lit "ERROR: ")
  | .warning => tr (lit "WARNING: ")
  | .information => tr (lit "INFO: ")
  | .debug => tr (lit "DEBUG: ")

/-- System.cpp:122 with String.cpp:1233-1245: the old text is freed, then the new one is written -/
def storeError (message : Text) : Level → List (Data × Text → Data × Text)
  | .error => [fun x => ({ x.1 with error := none }, x.2), fun x => ({ x.1 with error := some message }, x.2)]
  | _ => []

/-- System.cpp:141-151 -/
def reset : Level → Text
  | .error => txtReset
  | .warning => txtReset
  | _ => []

/-- System.cpp:155: `std::cout << msg << std::endl` -/
def print (level : Level) : List (Data × Text → Data × Text) :=
  if level.num > 0 then
    [fun x => ({ x.1 with console := x.1.console ++ cout x.2 }, x.2), fun x => ({ x.1 with console := x.1.console ++ [10] }, x.2)]
  else []

/-- System.cpp:110-185 between `lock` and `unlock` (Linux: 158-182 do nothing); 95-107 -/
def steps : Call → List (Data × Text → Data × Text)
  | .log stamp message level =>
    ([fun x => (x.1, if x.1.date then lit "[" ++ stamp ++ lit "] " else []),
     fun x => (x.1, x.2 ++ colour level),
     fun x => (x.1, if level.num ≥ x.1.label.num then x.2 ++ labelOf tr level else x.2)] : List (Data × Text → Data × Text)) ++
    storeError message level ++
    ([fun x => (x.1, x.2 ++ message),
     fun x => (x.1, x.2 ++ reset level)] : List (Data × Text → Data × Text)) ++
    print level
  | .enableDate b => [fun x => ({ x.1 with date := b }, x.2)]
  | .enableLabel l => [fun x => ({ x.1 with label := l }, x.2)]

def system : Mon Data Text Call := ⟨steps tr, []⟩

/-- System.cpp:34-38 -/
def start : Data := ⟨true, .debug, some [], []⟩

/-- System.cpp:187-190 `lastErrorMessage`: without the mutex; while the text is being replaced it reads freed memory -/
def lastErrorMessage (d : Data) : Res Text :=
  match d.error with
  | some t => .ok t
  | none => .error .ub

end Verif.Log
