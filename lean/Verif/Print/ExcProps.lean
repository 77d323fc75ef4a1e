import Verif.Print.Model
import Verif.Str.ConcatProps
/-
Property C137: message, log entry and trace of an exception (Linux).
-/
namespace Verif.Print
open Verif Verif.Str Verif.Str.Concat Verif.Str.ConcatProps Verif.Str.HashProps

/-! ### Specification -/

/-- characters of an ASCII text -/
def text (s : String) : List Ch := s.toList.map fun c => BitVec.ofNat 16 c.toNat

/-- The trace: a line with the message, if there is one, then a line for every frame. -/
def Trace (msg : List Ch) (frames : List (List Ch)) : List Ch :=
  text "Exception in thread \"\"" ++ (if msg = [] then [] else text " : " ++ msg) ++ text "\r\n" ++
    (frames.map fun f => text "\ta" ++ f ++ text "\r\n").flatten

/-! ### Lemmas -/

theorem copy_ok (m : Str) (hm : WF m) : ∃ r, copyCtor m = .ok r ∧ WF r ∧ chars r = chars m := by
  obtain ⟨r, e, w, c, _⟩ := copyCtor_ok hm
  exact ⟨r, e, w, c⟩

theorem literal_ok (s : String) : ∃ r, literal s = .ok r ∧ WF r ∧ chars r = text s := by
  obtain ⟨t, e, w, c, _⟩ := ofChars_ok (text s)
  exact ⟨t, e, w, c⟩

theorem takeSyms_ok (l : List (List Ch)) (is : List Nat) (h : ∀ i ∈ is, i < l.length) :
    ∃ r, takeSyms (some l) is = .ok r ∧ (∀ s ∈ r, WF s) ∧ List.Forall₂ (fun i (s : Str) => l[i]? = some (chars s)) is r := by
  induction is with
  | nil => exact ⟨[], rfl, by simp, .nil⟩
  | cons i is ih =>
    obtain ⟨r, e, hw, hr⟩ := ih fun j hj => h j (List.mem_cons_of_mem _ hj)
    have hi := h i List.mem_cons_self
    obtain ⟨s, es, ws, cs, _⟩ := ofChars_ok (l[i])
    refine ⟨s :: r, ?_, ?_, .cons ?_ hr⟩
    · simp only [takeSyms, rd, List.getElem?_eq_getElem hi, e, es, bind, Except.bind, pure, Except.pure]
    · intro x hx
      rcases List.mem_cons.1 hx with rfl | hx
      · exact ws
      · exact hw x hx
    · rw [cs]; exact List.getElem?_eq_getElem hi

/-- the texts of the operands, in order -/
inductive Texts : List Item → List Ch → Prop where
  | nil : Texts [] []
  | text {t is u} : WF t → Texts is u → Texts (.text t :: is) (chars t ++ u)
  | char {b : Byte} {is u} : b.toNat < 128 → Texts is u → Texts (.char b :: is) (BitVec.ofNat 16 b.toNat :: u)

theorem Texts.fits {is : List Item} {u : List Ch} (h : Texts is u) : ∀ i ∈ is, Fits i := by
  induction h with
  | nil => simp
  | text ht _ ih =>
    intro i hi
    rcases List.mem_cons.1 hi with rfl | hi
    · exact ht
    · exact ih i hi
  | char hb _ ih =>
    intro i hi
    rcases List.mem_cons.1 hi with rfl | hi
    · exact hb
    · exact ih i hi

theorem Texts.append {a b : List Item} {u v : List Ch} (h : Texts a u) (h' : Texts b v) : Texts (a ++ b) (u ++ v) := by
  induction h with
  | nil => exact h'
  | text ht _ ih => rw [List.append_assoc]; exact .text ht ih
  | char hb _ ih => exact .char hb ih

theorem Texts.joined {is : List Item} {u : List Ch} (h : Texts is u) : ∀ {t r : List Ch}, Joined t is r → r = t ++ u := by
  induction h with
  | nil => intro t r hj; cases hj; simp
  | text _ _ ih =>
    intro t r hj
    cases hj with
    | cons hs hj =>
      have hs : _ = _ := hs
      rw [ih hj, hs, List.append_assoc]
  | char _ _ ih =>
    intro t r hj
    cases hj with
    | cons hs hj =>
      have hs : _ = _ := hs
      rw [ih hj, hs, List.append_assoc]; rfl

theorem frameItems_ok (syms : List Str) (hw : ∀ s ∈ syms, WF s) (is : List Nat) (h : ∀ i ∈ is, i < syms.length) :
    ∃ r, frameItems syms is = .ok r ∧
      Texts r ((is.map fun i => text "\ta" ++ (syms[i]?.map chars).getD [] ++ text "\r\n").flatten) := by
  induction is with
  | nil => exact ⟨[], rfl, .nil⟩
  | cons i is ih =>
    obtain ⟨r, e, hr⟩ := ih fun j hj => h j (List.mem_cons_of_mem _ hj)
    have hi := h i List.mem_cons_self
    obtain ⟨a, ea, wa, ca⟩ := literal_ok "\ta"
    obtain ⟨b, eb, wb, cb⟩ := literal_ok "\r\n"
    refine ⟨.text a :: .text syms[i] :: .text b :: r, ?_, ?_⟩
    · simp only [frameItems, rd, List.getElem?_eq_getElem hi, e, ea, eb, bind, Except.bind, pure, Except.pure]
    · have := Texts.text wa (.text (hw _ (List.getElem_mem hi)) (.text wb hr))
      rw [ca, cb] at this
      rw [List.map_cons, List.flatten_cons, List.getElem?_eq_getElem hi]
      simpa only [Option.map_some, Option.getD_some, List.append_assoc] using this

/-! ### Theorems -/

/-- an exception as the constructors make it -/
structure Good (e : Exc) (msg : List Ch) (frames : List (List Ch)) : Prop where
  msg : WF e.msg ∧ chars e.msg = msg
  len : e.addrlen = frames.length
  wf : ∀ s ∈ e.syms, WF s
  syms : e.syms.map chars = frames

/-- The constructor keeps the message and the names of the frames and writes exactly the message to the log. -/
theorem create_ok (log : List (List Ch)) (msg : Str) (hm : WF msg) (frames : Nat) (l : List (List Ch)) (hl : frames ≤ l.length) :
    ∃ e, create log msg frames (some l) = .ok (e, log ++ [chars msg]) ∧ Good e (chars msg) (l.take frames) := by
  obtain ⟨m, em, wm, cm⟩ := copy_ok msg hm
  obtain ⟨r, er, hw, hr⟩ := takeSyms_ok l (List.range frames) fun i hi => by have := List.mem_range.1 hi; omega
  refine ⟨⟨m, frames, r⟩, ?_, ⟨wm, cm⟩, ?_, hw, ?_⟩
  · simp only [create, em, er, bind, Except.bind, pure, Except.pure, cm]
  · simp [Nat.min_eq_left hl]
  · have hlen : r.length = frames := by have := hr.length_eq; simpa using this.symm
    apply List.ext_getElem?
    intro i
    show (r.map chars)[i]? = _
    by_cases hi : i < frames
    · have hi' : i < r.length := by omega
      have := (List.forall₂_iff_get.1 hr).2 i (by simpa using hi) hi'
      simp only [List.get_eq_getElem, List.getElem_range] at this
      rw [List.getElem?_map, List.getElem?_eq_getElem hi', List.getElem?_take_of_lt hi, this]; rfl
    · rw [List.getElem?_eq_none (by simp; omega), List.getElem?_eq_none (by simp; omega)]

/-- The copy that is thrown and caught is the same, and nothing is logged. -/
theorem copy_same {e : Exc} {msg : List Ch} {frames : List (List Ch)} (h : Good e msg frames) :
    ∃ e', copy e = .ok e' ∧ Good e' msg frames := by
  obtain ⟨m, em, wm, cm⟩ := copy_ok e.msg h.msg.1
  exact ⟨⟨m, e.addrlen, e.syms⟩, by simp only [copy, em, bind, Except.bind, pure, Except.pure], ⟨wm, cm.trans h.msg.2⟩, h.len, h.wf, h.syms⟩

/-- The trace: the message and all frames but the first, which is the constructor itself, each in its line. -/
theorem trace_text {e : Exc} {msg : List Ch} {frames : List (List Ch)} (h : Good e msg frames) :
    ∃ r, trace e = .ok r ∧ chars r = Trace msg (frames.drop 1) := by
  obtain ⟨h1, e1, w1, c1⟩ := literal_ok "Exception in thread \""
  obtain ⟨h2, e2, w2, c2⟩ := literal_ok "\""
  obtain ⟨h3, e3, w3, c3⟩ := literal_ok " : "
  have hlen : e.syms.length = frames.length := by rw [← h.syms, List.length_map]
  obtain ⟨fs, ef, tf⟩ := frameItems_ok e.syms h.wf ((List.range (e.addrlen - 1)).map (· + 1)) (by
    intro i hi
    obtain ⟨j, hj, rfl⟩ := List.mem_map.1 hi
    have := List.mem_range.1 hj
    rw [hlen, ← h.len]; omega)
  have hfr : (((List.range (e.addrlen - 1)).map (· + 1)).map fun i => text "\ta" ++ (e.syms[i]?.map chars).getD [] ++ text "\r\n") =
      (frames.drop 1).map fun f => text "\ta" ++ f ++ text "\r\n" := by
    apply List.ext_getElem?
    intro i
    rw [List.map_map, List.getElem?_map, List.getElem?_map, List.getElem?_drop]
    by_cases hi : i < e.addrlen - 1
    · have hb : i + 1 < e.syms.length := by rw [hlen, ← h.len]; omega
      have hb' : i + 1 < frames.length := by omega
      have hb2 : 1 + i < frames.length := by omega
      rw [List.getElem?_range hi, List.getElem?_eq_getElem hb2]
      simp only [Option.map_some, Function.comp_def, List.getElem?_eq_getElem hb, Option.getD_some]
      congr 4
      have : frames[1 + i] = (e.syms.map chars)[1 + i]'(by simp; omega) := by
        congr 1; exact h.syms.symm
      rw [this, List.getElem_map]
      congr 2; omega
    · rw [List.getElem?_eq_none (by simp; omega), List.getElem?_eq_none (by rw [← h.len]; omega)]; rfl
  rw [hfr] at tf
  have hmid : Texts (if e.msg.len > 0 then [.text h3, .text e.msg] else []) (if msg = [] then [] else text " : " ++ msg) := by
    have hl : (chars e.msg).length = e.msg.len := chars_length h.msg.1
    rw [h.msg.2] at hl
    by_cases hm : msg = []
    · rw [if_pos hm, if_neg (by rw [← hl, hm]; simp)]; exact .nil
    · rw [if_neg hm, if_pos (by rw [← hl]; exact List.length_pos_iff.2 hm), ← c3, ← h.msg.2]
      have := Texts.text w3 (Texts.text h.msg.1 .nil)
      simpa using this
  have hall : Texts ((.text h1 :: .text h2 :: (if e.msg.len > 0 then [.text h3, .text e.msg] else [])) ++ (.char 13 :: .char 10 :: fs))
      (Trace msg (frames.drop 1)) := by
    have a := Texts.text w1 (Texts.text w2 hmid)
    have b : Texts (.char 13 :: .char 10 :: fs) _ := Texts.char (b := 13) (by decide) (Texts.char (b := 10) (by decide) tf)
    have c := Texts.append a b
    have eq : Trace msg (frames.drop 1) = chars h1 ++ (chars h2 ++ (if msg = [] then [] else text " : " ++ msg)) ++
        BitVec.ofNat 16 (13 : Byte).toNat :: BitVec.ofNat 16 (10 : Byte).toNat :: ((frames.drop 1).map fun f => text "\ta" ++ f ++ text "\r\n").flatten := by
      unfold Trace
      rw [c1, c2, show text "Exception in thread \"\"" = text "Exception in thread \"" ++ text "\"" by decide, show text "\r\n" = [13, 10] by decide]
      simp
    rw [eq]; exact c
  obtain ⟨r, er, hj, -⟩ := outs_partial _ empty_wf (.inl rfl) hall.fits
  refine ⟨r, ?_, ?_⟩
  · simp only [trace, e1, e2, e3, ef, bind, Except.bind]
    exact er
  · have := hall.joined hj
    rw [this]; rfl

/-- If the names of the frames cannot be allocated, making the exception is undefined behaviour. -/
theorem no_symbols (log : List (List Ch)) (msg : Str) (hm : WF msg) (frames : Nat) (hf : 0 < frames) :
    create log msg frames none = .error .ub := by
  obtain ⟨m, em, -, -⟩ := copy_ok msg hm
  obtain ⟨k, rfl⟩ : ∃ k, frames = k + 1 := ⟨frames - 1, by omega⟩
  simp only [create, em, bind, Except.bind, List.range_succ_eq_map, takeSyms]

/-- a message and three frames -/
example : ∃ e r, create [] ⟨[98, 97, 100], 3, 0⟩ 3 (some [text "ctor", text "f", text "main"]) = .ok (e, [text "bad"]) ∧ trace e = .ok r ∧
    chars r = text "Exception in thread \"\" : bad\r\n\taf\r\n\tamain\r\n" := by
  obtain ⟨e, h, g⟩ := create_ok [] ⟨[98, 97, 100], 3, 0⟩ (by decide) 3 [text "ctor", text "f", text "main"] (by decide)
  obtain ⟨r, hr, c⟩ := trace_text g
  exact ⟨e, r, h, hr, c.trans (by decide)⟩

end Verif.Print
