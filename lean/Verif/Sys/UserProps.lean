import Verif.Sys.Props
/-
C126: the user's names and the address of the network card.
-/
namespace Verif.Sys.UserProps
open Verif Verif.Str Verif.Sys Verif.Path.Spec Verif.Sys.Props
open Verif.I18n.Spec (units)
open Verif.Home.Props (bytes ofCString_bytes ofCString_none)
open Verif.Home (ofCString getenv)

/-! ### specification -/

/-- an entry of the user database as texts: account name and comment field -/
structure Account where
  name : Text
  comment : Text

def CleanAccount (a : Account) : Prop := Clean a.name ∧ Clean a.comment

/-- the comment field begins with the full name; room and telephone numbers follow, separated by commas -/
def fullName (a : Account) : Text := a.comment.takeWhile (fun x => x ≠ 0x2C)

/-- the user database as the operating system hands it out -/
def dbOf (db : Nat → Option Account) : Nat → Option Passwd := fun i => (db i).map fun a => ⟨bytes a.name, some (bytes a.comment)⟩

/-- a hexadecimal digit as a number, both cases -/
def digitValue (c : Ch) : Option Nat :=
  if 0x30 ≤ c.toNat ∧ c.toNat ≤ 0x39 then some (c.toNat - 0x30)
  else if 0x61 ≤ c.toNat ∧ c.toNat ≤ 0x66 then some (c.toNat - 0x61 + 10)
  else if 0x41 ≤ c.toNat ∧ c.toNat ≤ 0x46 then some (c.toNat - 0x41 + 10)
  else none

/-- The text is the usual notation of the six bytes: two digits each, colons between them. -/
def IsMac (t : Text) (m : Fin 6 → Byte) : Prop :=
  t.length = 17 ∧ (∀ i : Fin 6, ∃ a b x y, t[3 * i.val]? = some a ∧ t[3 * i.val + 1]? = some b ∧ digitValue a = some x ∧ digitValue b = some y ∧ 16 * x + y = (m i).toNat) ∧
    ∀ i, i < 5 → t[3 * i + 2]? = some 0x3A

/-! ### the account name -/

/-- **C126, exact.** The account name is what the variable `USER` says; empty if there is no such variable. -/
theorem userId_exact {u : Vars} (hu : CleanVars u) : ∃ r, userId (envOf u) = .ok r ∧ WF r ∧ chars r = (u "USER").getD [] := by
  unfold userId envOf
  cases h : u "USER" with
  | none => exact ofCString_none
  | some t =>
    have := hu _ _ h
    exact ofCString_bytes t this.1 this.2

/-- So it is right exactly if the variable holds the name of the account; the user database is not asked. -/
theorem userId_partial {u : Vars} (hu : CleanVars u) (db : Nat → Option Account) (uid : Nat) {a : Account} (_ : db uid = some a) (hn : a.name ≠ []) :
    ∃ r, userId (envOf u) = .ok r ∧ (chars r = a.name ↔ u "USER" = some a.name) := by
  obtain ⟨r, e, _, c⟩ := userId_exact hu
  refine ⟨r, e, ?_⟩
  rw [c]
  cases u "USER" with
  | none => simp [hn.symm]
  | some t => simp

/-- Violation: whatever text it is, there is an environment in which the program takes it for the account name. -/
theorem userId_any (t : Text) (ht : Clean t) : ∃ u, CleanVars u ∧ ∃ r, userId (envOf u) = .ok r ∧ chars r = t := by
  have hu : CleanVars (fun k => if k = "USER" then some t else none) := by
    intro k s h
    dsimp only at h
    split at h
    · cases h; exact ht
    · cases h
  obtain ⟨r, e, _, c⟩ := userId_exact hu
  exact ⟨_, hu, r, e, by simpa using c⟩

/-! ### the full name -/

/-- **C126, exact.** The whole comment field of the effective user. -/
theorem userFullName_exact {db : Nat → Option Account} {uid : Nat} {a : Account} (h : db uid = some a) (ha : CleanAccount a) :
    ∃ r, userFullName (dbOf db) uid = .ok r ∧ WF r ∧ chars r = a.comment := by
  unfold userFullName dbOf
  rw [h]
  exact ofCString_bytes a.comment ha.2.1 ha.2.2

/-- It is the full name exactly if nothing else is noted there. -/
theorem userFullName_partial {db : Nat → Option Account} {uid : Nat} {a : Account} (h : db uid = some a) (ha : CleanAccount a) :
    ∃ r, userFullName (dbOf db) uid = .ok r ∧ (chars r = fullName a ↔ (0x2C : Ch) ∉ a.comment) := by
  obtain ⟨r, e, _, c⟩ := userFullName_exact h ha
  refine ⟨r, e, ?_⟩
  rw [c, fullName]
  constructor
  · intro he hm
    rw [he] at hm
    have := Verif.I18n.takeWhile_sat _ _ hm
    simp at this
  · intro hm
    symm
    apply Verif.I18n.takeWhile_all
    intro x hx
    have : x ≠ 0x2C := fun e => hm (e ▸ hx)
    simpa using this

/-- Somebody who is not in the database is called this. -/
theorem userFullName_unknown {db : Nat → Option Account} {uid : Nat} (h : db uid = none) :
    ∃ r, userFullName (dbOf db) uid = .ok r ∧ WF r ∧ chars r = units "userFullName Not Found" := by
  unfold userFullName dbOf
  rw [h]
  have : asc "userFullName Not Found" = bytes (units "userFullName Not Found") := by decide +kernel
  show ∃ r, ofCString (some (asc "userFullName Not Found" ++ [0])) = _ ∧ _
  rw [this]
  exact ofCString_bytes _ (by decide +kernel) (by decide +kernel)

/-! ### the network card -/

/-- a digit as a character -/
def dig (n : Nat) : Ch := if n < 10 then BitVec.ofNat 16 (48 + n) else BitVec.ofNat 16 (87 + n)

theorem dig_ok (n : Nat) (h : n < 16) : Verif.Charset.enc1 (dig n) = [hexDigit n] ∧ dig n ≠ 0 ∧ dig n ≠ 0xFEFF ∧ digitValue (dig n) = some n := by
  have : (List.range 16).all (fun n => Verif.Charset.enc1 (dig n) == [hexDigit n] && dig n != 0 && dig n != 0xFEFF && digitValue (dig n) == some n) = true := by
    decide +kernel
  have := List.all_eq_true.1 this n (List.mem_range.2 h)
  simp only [Bool.and_eq_true, beq_iff_eq, bne_iff_ne, ne_eq] at this
  exact ⟨this.1.1.1, this.1.1.2, this.1.2, this.2⟩

/-- the text of the first six bytes -/
def macCh (m : Fin 8 → Byte) : Text :=
  [dig ((m 0).toNat / 16), dig ((m 0).toNat % 16), 0x3A, dig ((m 1).toNat / 16), dig ((m 1).toNat % 16), 0x3A,
   dig ((m 2).toNat / 16), dig ((m 2).toNat % 16), 0x3A, dig ((m 3).toNat / 16), dig ((m 3).toNat % 16), 0x3A,
   dig ((m 4).toNat / 16), dig ((m 4).toNat % 16), 0x3A, dig ((m 5).toNat / 16), dig ((m 5).toNat % 16)]

theorem hi (b : Byte) : b.toNat / 16 < 16 := by have := b.isLt; omega
theorem lo (b : Byte) : b.toNat % 16 < 16 := Nat.mod_lt _ (by decide)

theorem colon : Verif.Charset.enc1 0x3A = asc ":" := by decide +kernel

theorem macCh_bytes (m : Fin 8 → Byte) : bytes (macCh m) = macText m := by
  simp only [bytes, macCh, List.flatMap_cons, List.flatMap_nil, (dig_ok _ (hi _)).1, (dig_ok _ (lo _)).1, colon, macText, hex2]
  simp

theorem macCh_clean (m : Fin 8 → Byte) : Clean (macCh m) := by
  have h1 : (0 : Ch) ≠ 0x3A := by decide
  refine ⟨?_, ?_⟩
  · simp only [macCh, List.mem_cons, List.not_mem_nil, or_false, not_or]
    refine ⟨?_, ?_, h1, ?_, ?_, h1, ?_, ?_, h1, ?_, ?_, h1, ?_, ?_, h1, ?_, ?_⟩ <;>
      first
      | exact fun e => (dig_ok _ (hi _)).2.1 e.symm
      | exact fun e => (dig_ok _ (lo _)).2.1 e.symm
  · simp only [macCh, List.head?_cons, ne_eq, Option.some.injEq]
    exact (dig_ok _ (hi _)).2.2.1

theorem macCh_isMac (m : Fin 8 → Byte) : IsMac (macCh m) (fun i => m (i.castLE (by decide))) := by
  refine ⟨rfl, ?_, ?_⟩
  · intro i
    refine ⟨dig ((m (i.castLE (by decide))).toNat / 16), dig ((m (i.castLE (by decide))).toNat % 16), (m (i.castLE (by decide))).toNat / 16,
      (m (i.castLE (by decide))).toNat % 16, ?_, ?_, (dig_ok _ (hi _)).2.2.2, (dig_ok _ (lo _)).2.2.2, Nat.div_add_mod _ _⟩
    · match i with
      | 0 => rfl | 1 => rfl | 2 => rfl | 3 => rfl | 4 => rfl | 5 => rfl
    · match i with
      | 0 => rfl | 1 => rfl | 2 => rfl | 3 => rfl | 4 => rfl | 5 => rfl
  · intro i hi
    match i, hi with
    | 0, _ => rfl | 1, _ => rfl | 2, _ => rfl | 3, _ => rfl | 4, _ => rfl

/-- entries that are passed over: other families and cards whose entry does not mention the Internet protocol -/
def Skipped (a : Option Addr) : Prop := ∃ x, a = some x ∧ ∀ p m, x = .packet p m → p ≠ ipProtocol

theorem findMac_skip : ∀ (l rest : List (Option Addr)), (∀ a ∈ l, Skipped a) → findMac (l ++ rest) = findMac rest
  | [], _, _ => rfl
  | a :: l, rest, h => by
    obtain ⟨x, rfl, hx⟩ := h a List.mem_cons_self
    have ih := findMac_skip l rest fun b hb => h b (List.mem_cons_of_mem _ hb)
    cases x with
    | other => simpa only [List.cons_append, findMac] using ih
    | packet p m => simpa only [List.cons_append, findMac, if_neg (hx p m rfl)] using ih

/-- **C126, the part that holds.** If an entry of a network card mentions the Internet protocol and all entries before it have an address, the result is
the address of the first such card in the usual notation. -/
theorem macAddress1_partial (l rest : List (Option Addr)) (hl : ∀ a ∈ l, Skipped a) (m : Fin 8 → Byte) :
    ∃ r, macAddress1 (some (l ++ some (.packet ipProtocol m) :: rest)) = .ok r ∧ WF r ∧ IsMac (chars r) (fun i => m (i.castLE (by decide))) := by
  obtain ⟨r, e, w, c⟩ := ofCString_bytes (macCh m) (macCh_clean m).1 (macCh_clean m).2
  refine ⟨r, ?_, w, by rw [c]; exact macCh_isMac m⟩
  simp only [macAddress1, findMac_skip l _ hl, findMac, if_true, bind, Except.bind, ← macCh_bytes, e]

/-- Two cards with the same text have the same six bytes. -/
theorem isMac_unique {t : Text} {m n : Fin 6 → Byte} (hm : IsMac t m) (hn : IsMac t n) : m = n := by
  funext i
  obtain ⟨a, b, x, y, h1, h2, h3, h4, h5⟩ := hm.2.1 i
  obtain ⟨a', b', x', y', g1, g2, g3, g4, g5⟩ := hn.2.1 i
  rw [h1] at g1; rw [h2] at g2
  cases g1; cases g2
  rw [h3] at g3; rw [h4] at g4
  cases g3; cases g4
  exact BitVec.eq_of_toNat_eq (h5.symm.trans g5)

/-- Violation: the C library on Linux (glibc) fills in no protocol, so that the result is empty, however many cards there are. -/
theorem mac_never (l : List (Option Addr)) (h : ∀ a ∈ l, a ≠ none) (h0 : ∀ p m, some (Addr.packet p m) ∈ l → p = 0) :
    ∃ r, macAddress1 (some l) = .ok r ∧ WF r ∧ chars r = [] := by
  have hs : ∀ a ∈ l, Skipped a := by
    intro a ha
    cases a with
    | none => exact absurd rfl (h _ ha)
    | some x =>
      refine ⟨x, rfl, ?_⟩
      rintro p m rfl
      rw [h0 p m ha]; decide
  have := findMac_skip l [] hs
  rw [List.append_nil] at this
  obtain ⟨r, e, w, c⟩ := ofCString_bytes [] (by decide +kernel) (by decide +kernel)
  exact ⟨r, by simp only [macAddress1, this, findMac, bind, Except.bind]; exact e, w, c⟩

/-- Violation: an interface without an address (a tunnel, say) makes the program undefined unless a card was found before it. -/
theorem mac_null (l rest : List (Option Addr)) (hl : ∀ a ∈ l, Skipped a) : macAddress1 (some (l ++ none :: rest)) = .error .ub := by
  simp only [macAddress1, findMac_skip l _ hl, findMac, bind, Except.bind]

/-- no list of interfaces: empty -/
theorem mac_failed : ∃ r, macAddress1 none = .ok r ∧ WF r ∧ chars r = [] :=
  ofCString_bytes [] (by decide +kernel) (by decide +kernel)

/-! ### cases -/

example := userFullName_partial (db := fun _ => some ⟨units "uwe", units "Uwe Runtemund,Room 7,,"⟩) (uid := 1000) rfl
  ⟨by constructor <;> decide +kernel, by constructor <;> decide +kernel⟩

example := macAddress1_partial [some .other, some (.packet 0 (fun _ => 0))] [] (by
  intro a ha
  simp only [List.mem_cons, List.not_mem_nil, or_false] at ha
  rcases ha with rfl | rfl
  · exact ⟨_, rfl, fun p m h => by cases h⟩
  · refine ⟨_, rfl, fun p m h => ?_⟩
    cases h; decide) (fun i => BitVec.ofNat 8 (i.val + 1))

example := mac_never [some .other, some (.packet 0 (fun i => BitVec.ofNat 8 (i.val + 1)))] (by simp) (by
  intro p m h
  simp only [List.mem_cons, List.not_mem_nil, or_false, Option.some.injEq, reduceCtorEq, false_or, Addr.packet.injEq] at h
  exact h.1)

end Verif.Sys.UserProps
