import Verif.Fp.Model
import Verif.Num.Model
/-
C103: the classes Test and TestVector (Test.cpp, TestVector.cpp).  A test is the list of assertions its `doTest` makes, and whether it ends
with a jm::Exception.  What is logged is modelled where it can go wrong: the numbers of a failed comparison.  The counters are unbounded
(they are int64 in the code).
-/
namespace Verif.UnitTest
open Verif Verif.Str Verif.Fp

/-- Math.h:44 -/
def RESABS : F64 := lit 1 1000000

/-- one call of a test function with its arguments; pointers are addresses -/
inductive Assert where
  | fail
  | double (actual expected : F64)
  | int64 (actual expected : BitVec 64)
  | int64int32 (actual : BitVec 64) (expected : BitVec 32)
  | uint64 (actual expected : BitVec 64)
  | pointer (actual expected : BitVec 64)
  | uint64int32 (actual : BitVec 64) (expected : BitVec 32)
  | uint64uint32 (actual : BitVec 64) (expected : BitVec 32)
  | int32 (actual expected : BitVec 32)
  | uint32 (actual expected : BitVec 32)
  | uint32int32 (actual expected : BitVec 32)
  | int32uint32 (actual expected : BitVec 32)
  | string (actual expected : List Ch)
  | stringIgnoreCase (actual expected : List Ch)
  | null (actual : BitVec 64)
  | notNull (actual : BitVec 64)
  | isTrue (actual : Bool)
  | isFalse (actual : Bool)

/-- conversions of C++ -/
def signed {n : Nat} (x : BitVec n) : BitVec 64 := x.signExtend 64
def unsigned {n : Nat} (x : BitVec n) : BitVec 64 := x.setWidth 64

/-- Test.cpp:60-248: the comparison each of the functions makes (Strings as in `Verif/Str`: `equals` compares the characters,
`equalsIgnoreCase` the lower case ones) -/
def passes : Assert → Bool
  | .fail => false                                             -- 60-67, 245-248
  | .double a e => le (Fp.abs (a - e)) RESABS                  -- 69-80
  | .int64 a e => a == e                                       -- 82-95
  | .int64int32 a e => a == signed e                           -- 97-110
  | .uint64 a e => a == e                                      -- 112-124
  | .pointer a e => a == e                                     -- 126-138
  | .uint64int32 a e => a == signed e                          -- 140-143: (uint64)expected
  | .uint64uint32 a e => a == unsigned e                       -- 145-148
  | .int32 a e => signed a == signed e                         -- 150-153
  | .uint32 a e => unsigned a == unsigned e                    -- 155-158
  | .uint32int32 a e => unsigned a == signed e                 -- 160-163: (int64)actual, (int64)expected
  | .int32uint32 a e => signed a == unsigned e                 -- 165-168
  | .string a e => e == a                                      -- 185-195
  | .stringIgnoreCase a e => e.map toLowerCh == a.map toLowerCh -- 170-182
  | .null a => a == 0                                          -- 197-207
  | .notNull a => !(a == 0)                                    -- 209-219
  | .isTrue a => a == true                                     -- 221-231
  | .isFalse a => a == false                                   -- 233-243

/-- Test.cpp:89-91, 104-106, 121-122, 135-136: the two numbers of the message (String.cpp:1191-1213); the other functions show no
integers -/
def shown : Assert → Res (List (List Ch))
  | .int64 a e => do return [← Num.valueOf a.toInt, ← Num.valueOf e.toInt]
  | .int64int32 a e => do return [← Num.valueOf a.toInt, ← Num.valueOf e.toInt]
  | .uint64 a e => do return [← Num.valueOfU a.toNat, ← Num.valueOfU e.toNat]
  | .pointer a e => do return [← Num.valueOfU a.toNat, ← Num.valueOfU e.toNat]
  | .uint64int32 a e => do return [← Num.valueOfU a.toNat, ← Num.valueOfU (signed e).toNat]
  | .uint64uint32 a e => do return [← Num.valueOfU a.toNat, ← Num.valueOfU e.toNat]
  | .int32 a e => do return [← Num.valueOf a.toInt, ← Num.valueOf e.toInt]
  | .uint32 a e => do return [← Num.valueOfU a.toNat, ← Num.valueOfU e.toNat]
  | .uint32int32 a e => do return [← Num.valueOf (unsigned a).toInt, ← Num.valueOf e.toInt]
  | .int32uint32 a e => do return [← Num.valueOf a.toInt, ← Num.valueOf (unsigned e).toInt]
  | _ => .ok []

/-- Test.h: the four global counters -/
structure Counters where
  tests : Nat
  errors : Nat
  totalTests : Nat
  totalErrors : Nat
deriving DecidableEq, Repr

/-- the counters after one assertion -/
def count (c : Counters) (pass : Bool) : Counters :=
  if pass then ⟨c.tests + 1, c.errors, c.totalTests + 1, c.totalErrors⟩ else ⟨c.tests + 1, c.errors + 1, c.totalTests + 1, c.totalErrors + 1⟩

/-- one assertion: only a failure writes a message -/
def check (c : Counters) (a : Assert) : Res Counters :=
  if passes a then .ok (count c true) else (shown a).map (fun _ => count c false)

def checks (c : Counters) : List Assert → Res Counters
  | [] => .ok c
  | a :: l =>
    match check c a with
    | .error e => .error e
    | .ok c => checks c l

structure TestCase where
  asserts : List Assert
  throws : Bool

/-- TestVector.cpp:97-120; the report is what the message says: tests and errors -/
def testrun (c : Counters) : Option TestCase → Res (Counters × List (Nat × Nat))
  | none => .ok (c, [])
  | some t =>
    match checks c t.asserts with
    | .error e => .error e
    | .ok c =>
      let c := if t.throws then count c false else c
      .ok (⟨0, 0, c.totalTests, c.totalErrors⟩, [(c.tests, c.errors)])

/-- TestVector.cpp:62-73: -1 for all -/
def single (arg : List Ch) : Res Int :=
  if arg.length > 0 then
    match Num.toInt arg with
    | .ok z => .ok z
    | .error .thrown => .ok (-1)
    | .error .ub => .error .ub
  else .ok (-1)

/-- TestVector.cpp:75-78 -/
def loop (s : Int) (c : Counters) (a : Int) : List (Option TestCase) → Res (Counters × List (Nat × Nat))
  | [] => .ok (c, [])
  | t :: l =>
    if s < 0 ∨ s = a then
      match testrun c t with
      | .error e => .error e
      | .ok (c, r) => (loop s c (a + 1) l).map (fun p => (p.1, r ++ p.2))
    else loop s c (a + 1) l

/-- TestVector.cpp:55-95: the reports, the counters, the number returned -/
def execute (c : Counters) (arg : List Ch) (tests : List (Option TestCase)) : Res (List (Nat × Nat) × Counters × Nat) := do
  let s ← single arg
  let p ← loop s ⟨c.tests, c.errors, 0, 0⟩ 0 tests
  return (p.2, p.1, p.1.totalErrors)

end Verif.UnitTest
