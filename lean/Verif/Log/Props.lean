import Verif.Log.Model
/-
C100: messages logged by several threads.
-/
namespace Verif.Log.Props
open Verif Verif.Log
variable {tr : Text → Text}

/-! ### specification -/

/-- what a message looks like: date, colour, label, message, end of the colour -/
def shown (tr : Text → Text) (date : Bool) (label : Level) (stamp message : Text) (level : Level) : Text :=
  (if date then lit "[" ++ stamp ++ lit "] " else []) ++ colour level ++ (if level.num ≥ label.num then labelOf tr level else []) ++ message ++ reset level

/-- one line of the console; messages for debugging are not shown -/
def line (tr : Text → Text) (date : Bool) (label : Level) (stamp message : Text) (level : Level) : List Byte :=
  if level = .debug then [] else cout (shown tr date label stamp message level) ++ [10]

/-- what a call does when nobody interferes -/
def effect (tr : Text → Text) (d : Data) : Call → Data
  | .log stamp message level =>
    { d with
      error := if level = .error then some message else d.error
      console := d.console ++ line tr d.date d.label stamp message level }
  | .enableDate b => { d with date := b }
  | .enableLabel l => { d with label := l }

theorem alone_eq (d : Data) (c : Call) : alone (system tr) d c = effect tr d c := by
  cases c with
  | enableDate b => rfl
  | enableLabel l => rfl
  | log stamp message level =>
    rcases d with ⟨date, label, error, console⟩
    cases level <;> cases label <;> cases date <;>
      simp [alone, system, steps, effect, line, storeError, print, Level.num, colour, reset, shown, List.append_assoc]

/-! ### C100 -/

/-- whatever the schedule: as soon as no call is under way, console, last error and settings are what the calls made so far give one
after the other, in an order that keeps the order of each thread -/
theorem log_serial (calls : Nat → List Call) (l : List Nat) (s : MSt Data Text Call) (h : mrun (system tr) ⟨start, none, calls⟩ l = some s)
    (hq : s.busy = none) : ∃ order, s.data = order.foldl (fun d c => effect tr d c.2) start ∧ ∀ t, calls t = ofThread t order ++ s.left t := by
  obtain ⟨order, h1, h2⟩ := serial (system tr) start calls l s h hq
  refine ⟨order, ?_, h2⟩
  rw [h1]
  unfold inOrder
  congr 1
  funext d c
  exact alone_eq d c.2

/-- nobody blocks for ever -/
theorem log_progress (s : MSt Data Text Call) (h : s.busy ≠ none ∨ ∃ t, s.left t ≠ []) : ∃ t s', mstep (system tr) s t = some s' :=
  progress (system tr) s h

theorem steps_le (c : Call) : (steps tr c).length ≤ 9 := by
  cases c with
  | log stamp message level => cases level <;> simp [steps, storeError, print, Level.num]
  | enableDate b => simp [steps]
  | enableLabel l => simp [steps]

/-- every call ends after at most eleven steps of its thread, so a schedule is never longer than eleven steps for each call -/
theorem log_ends (n : Nat) (calls : Nat → List Call) (hn : ∀ t, n ≤ t → calls t = []) (l : List Nat) (s : MSt Data Text Call)
    (h : mrun (system tr) ⟨start, none, calls⟩ l = some s) : l.length ≤ ((List.range n).map (fun t => 11 * (calls t).length)).sum := by
  have hb := bounded (system tr) n l _ s hn h
  have hc : ∀ c : List Call, cost (system tr) c ≤ 11 * c.length := by
    intro c
    induction c with
    | nil => simp [cost]
    | cons x c ih =>
      have := steps_le (tr := tr) x
      simp only [cost, List.map_cons, List.sum_cons, List.length_cons, system] at ih ⊢
      omega
  have hs : ∀ l : List Nat, (l.map (fun t => cost (system tr) (calls t))).sum ≤ (l.map (fun t => 11 * (calls t).length)).sum := by
    intro l
    induction l with
    | nil => simp
    | cons t l ih =>
      have := hc (calls t)
      simp only [List.map_cons, List.sum_cons]
      omega
  have := hs (List.range n)
  simp only [MSt.todo, MSt.inCost] at hb
  omega

/-- a call that logs -/
structure Msg where
  stamp : Text
  message : Text
  level : Level

def Msg.call (m : Msg) : Call := .log m.stamp m.message m.level

/-- the messages of all threads come out as whole lines, none lost, none mixed with another; the last error is that of the last line that is
one -/
theorem whole_lines (msgs : Nat → List Msg) (l : List Nat) (s : MSt Data Text Call)
    (h : mrun (system tr) ⟨start, none, fun t => (msgs t).map Msg.call⟩ l = some s) (hq : s.busy = none) :
    ∃ order : List (Nat × Msg),
      s.data.console = order.flatMap (fun m => line tr true .debug m.2.stamp m.2.message m.2.level) ∧
      s.data.error = some ((((order.map (·.2)).filter (fun m => m.level = .error)).getLast?.map Msg.message).getD []) ∧
      ∀ t, (msgs t).map Msg.call = ((order.filter (fun m => m.1 == t)).map (fun m => m.2.call)) ++ s.left t := by
  obtain ⟨order, h1, h2⟩ := log_serial (tr := tr) (fun t => (msgs t).map Msg.call) l s h hq
  -- every call in the order is a message
  have hall : ∀ c ∈ order, ∃ m : Msg, c.2 = m.call := by
    intro c hc
    have hm : c.2 ∈ ofThread c.1 order := by
      simp only [ofThread, List.mem_map, List.mem_filter]
      exact ⟨c, ⟨hc, by simp⟩, rfl⟩
    have : c.2 ∈ (msgs c.1).map Msg.call := by rw [h2 c.1]; exact List.mem_append_left _ hm
    obtain ⟨m, _, e⟩ := List.mem_map.1 this
    exact ⟨m, e.symm⟩
  have hex : ∃ o : List (Nat × Msg), order = o.map (fun m => (m.1, m.2.call)) := by
    clear h1 h2
    induction order with
    | nil => exact ⟨[], rfl⟩
    | cons c order ih =>
      obtain ⟨o, ho⟩ := ih (fun c hc => hall c (List.mem_cons_of_mem _ hc))
      obtain ⟨m, hm⟩ := hall c List.mem_cons_self
      exact ⟨(c.1, m) :: o, by simp [ho, ← hm]⟩
  obtain ⟨o, rfl⟩ := hex
  refine ⟨o, ?_, ?_, ?_⟩
  · -- the console
    have key : ∀ (o : List (Nat × Msg)) (d : Data), d.date = true → d.label = .debug →
        ((o.map (fun m => (m.1, m.2.call))).foldl (fun d c => effect tr d c.2) d).console =
          d.console ++ o.flatMap (fun m => line tr true .debug m.2.stamp m.2.message m.2.level) := by
      intro o
      induction o with
      | nil => intro d _ _; simp
      | cons m o ih =>
        intro d hd hl
        simp only [List.map_cons, List.foldl_cons, List.flatMap_cons]
        rw [ih _ (by simpa [effect, Msg.call] using hd) (by simpa [effect, Msg.call] using hl)]
        simp [effect, Msg.call, hd, hl, List.append_assoc]
    rw [h1, key o start rfl rfl]
    rfl
  · have key : ∀ (o : List (Nat × Msg)) (d : Data),
        ((o.map (fun m => (m.1, m.2.call))).foldl (fun d c => effect tr d c.2) d).error =
          match (((o.map (·.2)).filter (fun m => m.level = .error)).getLast?) with
          | some m => some m.message
          | none => d.error := by
      intro o
      induction o with
      | nil => intro d; rfl
      | cons m o ih =>
        intro d
        simp only [List.map_cons, List.foldl_cons]
        rw [ih]
        by_cases he : m.2.level = .error
        · simp only [List.filter_cons, he, decide_true, if_true]
          cases hf : List.filter (fun m => decide (m.level = Level.error)) (o.map (·.2)) with
          | nil => simp [effect, Msg.call, he]
          | cons a b =>
            rw [List.getLast?_cons_cons, List.getLast?_eq_some_getLast (List.cons_ne_nil a b)]
        · simp only [List.filter_cons, he, decide_false, Bool.false_eq_true, if_false, effect, Msg.call]
    rw [h1, key o start]
    cases (((o.map (·.2)).filter (fun m => m.level = .error)).getLast?) with
    | none => rfl
    | some m => rfl
  · intro t
    have := h2 t
    rw [this]
    simp [ofThread, List.filter_map, Function.comp_def]

/-- a message of plain characters comes out completely: with the date and the labels off, the line of an information is the message -/
theorem line_message (stamp message : Text) (h : ∀ c ∈ message, Charset.win1252Enc1 c ≠ 0) :
    line tr false .warning stamp message .information = Charset.win1252Encode message ++ [10] := by
  have hs : shown tr false .warning stamp message .information = message := by
    simp [shown, colour, reset, Level.num]
  simp only [line, reduceCtorEq, if_false, hs, cout]
  congr 1
  have key : ∀ l : List Byte, (∀ b ∈ l, b ≠ 0) → l.takeWhile (· ≠ 0) = l := by
    intro l
    induction l with
    | nil => intro _; rfl
    | cons a l ih =>
      intro hl
      rw [List.takeWhile_cons, if_pos (by simpa using hl a List.mem_cons_self), ih (fun b hb => hl b (List.mem_cons_of_mem _ hb))]
  refine key _ ?_
  intro b hb
  obtain ⟨c, hc, rfl⟩ := List.mem_map.1 hb
  exact h c hc

/-- a character with a low byte of zero ends the line: here the Chinese word for one, after it nothing is written, not even the
end of the colour -/
theorem message_cut (stamp rest : Text) : line tr false .debug stamp ([0x4E00] ++ rest) .error =
    cout (colour .error ++ labelOf tr .error) ++ [10] := by
  have hs : shown tr false .debug stamp ([0x4E00] ++ rest) .error = (colour .error ++ labelOf tr .error) ++ ([0x4E00] ++ rest ++ txtReset) := by
    simp [shown, reset, Level.num]
  have hcut : ∀ (l : List Byte) (r : List Byte), (l ++ 0 :: r).takeWhile (· ≠ 0) = l.takeWhile (· ≠ 0) := by
    intro l
    induction l with
    | nil => intro r; simp
    | cons a l ih =>
      intro r
      simp only [List.cons_append, List.takeWhile_cons]
      rw [ih]
  have h0 : Charset.win1252Enc1 0x4E00 = 0 := by decide
  simp only [line, reduceCtorEq, if_false, hs, cout, Charset.win1252Encode, List.map_append, List.map_cons, List.map_nil, h0]
  rw [List.append_assoc [0], List.singleton_append, hcut]

/-- `lastErrorMessage` does not take the mutex: while another thread logs an error it can read freed memory -/
theorem last_error_race (tr : Text → Text) (stamp message : Text) : ∃ l s, mrun (system tr) ⟨start, none, fun t => if t = 0 then [.log stamp message .error] else []⟩ l = some s ∧
    lastErrorMessage s.data = .error .ub := by
  refine ⟨[0, 0, 0, 0, 0], _, rfl, rfl⟩

/-- when no call is under way it is fine -/
theorem last_error_quiet (calls : Nat → List Call) (l : List Nat) (s : MSt Data Text Call) (h : mrun (system tr) ⟨start, none, calls⟩ l = some s)
    (hq : s.busy = none) : ∃ t, lastErrorMessage s.data = .ok t := by
  obtain ⟨order, h1, _⟩ := log_serial calls l s h hq
  have key : ∀ (o : List (Nat × Call)) (d : Data), d.error.isSome → (o.foldl (fun d c => effect tr d c.2) d).error.isSome := by
    intro o
    induction o with
    | nil => intro d h; exact h
    | cons c o ih =>
      intro d h
      refine ih _ ?_
      rcases c with ⟨_, c⟩
      cases c with
      | log stamp message level =>
        simp only [effect]
        split
        · rfl
        · exact h
      | enableDate b => exact h
      | enableLabel l => exact h
  have := key order start rfl
  rw [← h1] at this
  obtain ⟨t, ht⟩ := Option.isSome_iff_exists.1 this
  exact ⟨t, by simp [lastErrorMessage, ht]⟩

/-! ### the hypotheses are met -/

/-- two threads that log at the same time -/
example : ∃ l s, mrun (system id) ⟨start, none, fun t => if t < 2 then [.log (lit "12:00") (lit "hello") .information] else []⟩ l = some s ∧ s.busy = none ∧
    s.data.console = cout (lit "[12:00] INFO: hello") ++ [10] ++ cout (lit "[12:00] INFO: hello") ++ [10] := by
  refine ⟨[1, 1, 1, 1, 1, 1, 1, 1, 1, 0, 0, 0, 0, 0, 0, 0, 0, 0], _, rfl, rfl, by decide +kernel⟩

example : ∀ c ∈ lit "plain", Charset.win1252Enc1 c ≠ 0 := by
  have : (lit "plain").all (fun c => Charset.win1252Enc1 c ≠ 0) = true := by decide +kernel
  simpa using this

end Verif.Log.Props
