import Verif.Xml.ParserProofs
import Verif.Lists.TokenizerProps
import Verif.Base64.Props
/-
Proof: the writer produces documents of the specified fragment which say what the calls say.
-/
namespace Verif.Xml.WriterProofs
open Verif Verif.Str Verif.Xml Verif.Xml.Spec Verif.Lists Verif.Lists.TokenizerProps Verif.Xml.ParserProofs

/-- how the writer writes a character -/
def pieceOf (c : Ch) : Piece :=
  if c = cAmp then .ref .amp
  else if c = cLt then .ref .lt
  else if c = cGt then .ref .gt
  else if c = cQuot then .ref .quot
  else if c = cApos then .ref .apos
  else .lit c

theorem pieceOf_char (c : Ch) : (pieceOf c).char = c := by
  unfold pieceOf
  repeat' split
  all_goals first | rfl | (subst_vars; rfl)

theorem pieceOf_lit {c d : Ch} (h : pieceOf c = .lit d) : d = c ∧ c ≠ cAmp ∧ c ≠ cLt ∧ c ≠ cGt ∧ c ≠ cQuot ∧ c ≠ cApos := by
  unfold pieceOf at h
  repeat' split at h
  all_goals first | (cases h; done) | (cases h; exact ⟨rfl, by assumption, by assumption, by assumption, by assumption, by assumption⟩)

def marks : List Ch := [cAmp, cLt, cGt, cQuot, cApos]

theorem marks_lit : lit "&<>\"'" = marks := by decide

theorem encodeToken_mark : ∀ c ∈ marks, encodeToken [c] = (pieceOf c).src := by
  intro c hc
  simp only [marks, List.mem_cons, List.not_mem_nil, or_false] at hc
  rcases hc with rfl | rfl | rfl | rfl | rfl <;> decide +kernel

theorem pieceOf_plain {c : Ch} (h : c ∉ marks) : pieceOf c = .lit c := by
  simp only [marks, List.mem_cons, List.not_mem_nil, or_false, not_or] at h
  obtain ⟨h1, h2, h3, h4, h5⟩ := h
  unfold pieceOf
  rw [if_neg h1, if_neg h2, if_neg h3, if_neg h4, if_neg h5]

theorem plain_src (x : List Ch) (h : ∀ c ∈ x, c ∉ marks) : (x.map pieceOf).flatMap Piece.src = x := by
  induction x with
  | nil => rfl
  | cons c x ih =>
    rw [List.map_cons, List.flatMap_cons, ih (fun d hd => h d (by simp [hd])), pieceOf_plain (h c (by simp))]
    rfl

theorem encodeToken_plain {c : Ch} {x : List Ch} (h : c ∉ marks) : encodeToken (c :: x) = c :: x := by
  have hne : ∀ d ∈ marks, c :: x ≠ [d] := by
    intro d hd e
    cases e
    exact h hd
  unfold encodeToken
  have l1 : lit "&" = [cAmp] := by decide
  have l2 : lit "<" = [cLt] := by decide
  have l3 : lit ">" = [cGt] := by decide
  have l4 : lit "\"" = [cQuot] := by decide
  have l5 : lit "'" = [cApos] := by decide
  rw [l1, l2, l3, l4, l5, if_neg (hne _ (by simp [marks])), if_neg (hne _ (by simp [marks])), if_neg (hne _ (by simp [marks])),
    if_neg (hne _ (by simp [marks])), if_neg (hne _ (by simp [marks]))]

theorem encodeLoop_ok (fuel : Nat) (t : Tok) (T : List (List Ch)) (out : List Ch) (h : Abs t T) (hf : T.length < fuel) :
    encodeLoop fuel t out = .ok (out ++ T.flatMap encodeToken) := by
  induction fuel generalizing t T out with
  | zero => omega
  | succ fuel ih =>
    obtain ⟨t1, h1, h2, _⟩ := hasNext_ok h
    unfold encodeLoop
    simp only [h1, bind, Except.bind]
    cases T with
    | nil => simp [pure, Except.pure]
    | cons x T =>
      obtain ⟨t2, h3, h4, _⟩ := next_ok h2
      simp only [List.isEmpty_cons, Bool.not_false, if_true, h3, List.head?_cons]
      rw [ih t2 T _ h4 (by simp at hf; omega)]
      simp

theorem toks_encoded (s : List Ch) :
    (toks true (fun c => decide (c ∈ marks)) s).flatMap encodeToken = (s.map pieceOf).flatMap Piece.src := by
  generalize hD : (fun c => decide (c ∈ marks)) = D
  have hD' : ∀ c, D c = true ↔ c ∈ marks := by intro c; rw [← hD]; simp
  induction hn : s.length using Nat.strongRecOn generalizing s with
  | _ n ih =>
    cases s with
    | nil => simp [toks]
    | cons c l =>
      rw [toks]
      by_cases hc : D c = true
      · rw [if_pos hc, if_pos rfl, List.flatMap_cons, List.map_cons, List.flatMap_cons,
          encodeToken_mark c ((hD' c).1 hc), ih l.length (by simp at hn; omega) l rfl]
      · rw [if_neg hc, List.flatMap_cons]
        have hm : c ∉ marks := fun h => hc ((hD' c).2 h)
        have hlen : (l.dropWhile (fun c => !D c)).length < n := by
          have := (List.dropWhile_sublist (l := l) (fun c => !D c)).length_le
          simp at hn; omega
        rw [ih _ hlen _ rfl, encodeToken_plain hm]
        have hsplit : c :: l = (c :: l.takeWhile (fun c => !D c)) ++ l.dropWhile (fun c => !D c) := by
          rw [List.cons_append, List.takeWhile_append_dropWhile]
        rw [hsplit, List.map_append, List.flatMap_append, plain_src (c :: l.takeWhile (fun c => !D c))]
        intro d hd
        rw [List.mem_cons] at hd
        rcases hd with rfl | hd
        · exact hm
        · have := mem_takeWhile_imp hd
          simp only [Bool.not_eq_true', ← Bool.not_eq_true] at this
          exact fun h => this ((hD' d).2 h)

/-- `Encode` replaces the five characters, one by one -/
theorem encode_eq (s : List Ch) : encode s = .ok ((s.map pieceOf).flatMap Piece.src) := by
  unfold encode
  rw [marks_lit, encodeLoop_ok _ _ _ _ (abs_new s marks true) (by have := toks_length true (fun c => decide (c ∈ marks)) s; omega),
    toks_encoded, List.nil_append]

/-! ### the invariant -/

/-- the start tag which is still open -/
abbrev Pend := Option (List Ch × List Attr)

def pendSrc : Pend → List Ch
  | none => []
  | some (n, as) => chr '<' :: n ++ as.flatMap Attr.src

def pendItems : Pend → List Item
  | none => []
  | some (n, as) => .start n :: as.map Attr.items

def names (w : W) : List (List Ch) := w.stack.map Elem.name

def prolog : List Ch := lit "<?xml version=\"1.0\" encoding=\"UTF-8\"?>\n"

/-- pieces without a literal apostrophe -/
def NoLit (d : List Piece) : Prop := ∀ c, Piece.lit c ∈ d → c ≠ cApos

def AttrNoLit (a : Attr) : Prop := NoLit a.value

def TokNoLit : Token → Prop
  | .open_ _ as _ => ∀ a ∈ as, AttrNoLit a
  | .empty _ as _ => ∀ a ∈ as, AttrNoLit a
  | .close _ _ => True
  | .text d => NoLit d

def PendOk (w : W) : Pend → Prop
  | none => ∀ e ∈ w.stack, e.hasContent = true
  | some (n, as) => NameOk n ∧ (∀ a ∈ as, a.Ok) ∧ (∀ a ∈ as, AttrNoLit a) ∧
      ∃ e st, w.stack = e :: st ∧ e.name = n ∧ e.hasContent = false ∧ ∀ x ∈ st, x.hasContent = true

structure Inv (w : W) (ts : List Token) (pend : Pend) : Prop where
  out : w.out = prolog ++ src ts ++ pendSrc pend
  ok : ∀ t ∈ ts, t.Ok
  nolit : ∀ t ∈ ts, TokNoLit t
  namesOk : ∀ n ∈ names w, NameOk n
  pendOk : PendOk w pend
  nestEq : nest ts [] = some (if pend.isSome then (names w).tail else names w)
  indent : ∃ i, w.indent = some i
  last : ∃ b, w.last = some b

theorem nest_append (a b : List Token) : ∀ st, Spec.nest (a ++ b) st = (Spec.nest a st).bind (Spec.nest b) := by
  induction a with
  | nil => intro st; simp [Spec.nest]
  | cons t a ih =>
    intro st
    cases t with
    | open_ n as sp => simp only [List.cons_append, Spec.nest]; exact ih _
    | empty n as sp => simp only [List.cons_append, Spec.nest]; exact ih _
    | text d => simp only [List.cons_append, Spec.nest]; exact ih _
    | close n sp =>
      cases st with
      | nil => rfl
      | cons m st =>
        simp only [List.cons_append, Spec.nest]
        split
        · exact ih _
        · rfl

theorem src_append (a b : List Token) : src (a ++ b) = src a ++ src b := by simp [src]
theorem items_append (a b : List Token) : items (a ++ b) = items a ++ items b := by simp [items]

theorem isSome_false {p : Pend} (h : p.isSome = false) : p = none := by cases p <;> simp_all

theorem names_content (w : W) (e : Elem) (st : List Elem) (h : w.stack = e :: st) :
    names w = e.name :: st.map Elem.name := by simp [names, h]

/-- finishing the start tag -/
theorem closeTag_inv {w : W} {ts : List Token} {pend : Pend} (h : Inv w ts pend) :
    ∃ ts', Inv w.closeTag ts' none ∧ items ts' = items ts ++ pendItems pend ∧ names w.closeTag = names w ∧
      w.closeTag.indent = w.indent ∧ w.closeTag.last = w.last ∧ w.closeTag.stack.map Elem.indent = w.stack.map Elem.indent := by
  cases pend with
  | none =>
    have : w.closeTag = w := by
      unfold W.closeTag
      split
      · rfl
      · rename_i e st hs
        have := h.pendOk e (by rw [hs]; simp)
        rw [if_neg (by simp [this])]
    rw [this]
    exact ⟨ts, h, by simp [pendItems], rfl, rfl, rfl, rfl⟩
  | some p =>
    obtain ⟨n, as⟩ := p
    obtain ⟨h1, h2, h2', e, st, hs, hn, hc, hst⟩ := h.pendOk
    obtain ⟨v, hv⟩ : ∃ v, v = w.closeTag := ⟨_, rfl⟩
    have hv' : v = { w with stack := { e with hasContent := true } :: st, out := w.out ++ [cGt] } := by
      rw [hv]; unfold W.closeTag; simp [hs, hc, W.write]
    rw [← hv]
    have hnames : names v = names w := by rw [hv']; simp [names, hs]
    refine ⟨ts ++ [.open_ n as []], ⟨?_, ?_, ?_, ?_, ?_, ?_, ?_, ?_⟩, ?_, hnames, ?_, ?_, ?_⟩
    · rw [hv']
      show w.out ++ [cGt] = _
      rw [h.out, src_append]
      simp [src, Token.src, pendSrc, k_gt]
    · intro t ht
      rw [List.mem_append, List.mem_singleton] at ht
      rcases ht with ht | rfl
      · exact h.ok t ht
      · exact ⟨h1, h2, by simp⟩
    · intro t ht
      rw [List.mem_append, List.mem_singleton] at ht
      rcases ht with ht | rfl
      · exact h.nolit t ht
      · exact h2'
    · rw [hnames]; exact h.namesOk
    · intro x hx
      rw [hv'] at hx
      simp only [List.mem_cons] at hx
      rcases hx with rfl | hx
      · rfl
      · exact hst x hx
    · rw [nest_append, h.nestEq, hnames]
      simp [Spec.nest, names, hs, hn]
    · rw [hv']; exact h.indent
    · rw [hv']; exact h.last
    · rw [items_append]; simp [items, Token.items, pendItems]
    · rw [hv']
    · rw [hv']
    · rw [hv']; simp [hs]

/-- appending text -/
theorem text_inv {w v : W} {ts : List Token} {d : List Piece} (h : Inv w ts none) (hd : (Token.text d).Ok) (hd2 : NoLit d)
    (hout : v.out = w.out ++ d.flatMap Piece.src) (hn : names v = names w) (hp : PendOk v none) (hi : ∃ i, v.indent = some i)
    (hl : ∃ b, v.last = some b) : Inv v (ts ++ [.text d]) none := by
  refine ⟨?_, ?_, ?_, ?_, hp, ?_, hi, hl⟩
  · rw [hout, h.out, src_append]; simp [src, Token.src, pendSrc]
  · intro t ht
    rw [List.mem_append, List.mem_singleton] at ht
    rcases ht with ht | rfl
    · exact h.ok t ht
    · exact hd
  · intro t ht
    rw [List.mem_append, List.mem_singleton] at ht
    rcases ht with ht | rfl
    · exact h.nolit t ht
    · exact hd2
  · rw [hn]; exact h.namesOk
  · rw [nest_append, h.nestEq, hn]; simp [Spec.nest]

theorem items_text (ts : List Token) (d : List Piece) : items (ts ++ [.text d]) = items ts ++ d.map (fun p => .char p.char) := by
  simp [items, Token.items]

/-- the white space of `WriteIndent` -/
def wsOf (i : Int) : List Ch := cNl :: List.replicate i.toNat cSpace

theorem wsOf_S (i : Int) : ∀ c ∈ wsOf i, IsS c := by
  intro c hc
  simp only [wsOf, List.mem_cons, List.mem_replicate] at hc
  rcases hc with rfl | ⟨_, rfl⟩
  · exact Or.inr (Or.inr (Or.inr rfl))
  · exact Or.inl rfl

theorem litText (s : List Ch) : (s.map Piece.lit).flatMap Piece.src = s := by
  induction s with
  | nil => rfl
  | cons c s ih => simp [Piece.src, ih]

theorem litItems (s : List Ch) : (s.map Piece.lit).map (fun p => Item.char p.char) = s.map .char := by
  simp [Piece.char, Function.comp_def]

theorem S_text {s : List Ch} (h : ∀ c ∈ s, IsS c) : (Token.text (s.map Piece.lit)).Ok ∧ NoLit (s.map Piece.lit) := by
  refine ⟨?_, ?_⟩
  · intro c hc
    simp only [List.mem_map, Piece.lit.injEq, exists_eq_right] at hc
    have := ws_ne (s_ws (h c hc))
    exact ⟨this.1, this.2.2.1⟩
  · intro c hc
    simp only [List.mem_map, Piece.lit.injEq, exists_eq_right] at hc
    have := ws_ne (s_ws (h c hc))
    exact this.2.2.2.2.2.2

theorem writeIndent_inv {w : W} {ts : List Token} (h : Inv w ts none) :
    ∃ (ws : List Ch) (v : W), w.writeIndent = .ok v ∧ (∀ c ∈ ws, IsS c) ∧ Inv v (ts ++ [.text (ws.map .lit)]) none ∧ v.stack = w.stack ∧
      v.indent = w.indent ∧ v.last = w.last := by
  obtain ⟨i, hi⟩ := h.indent
  refine ⟨wsOf i, w.write (wsOf i), ?_, wsOf_S i, ?_, rfl, rfl, rfl⟩
  · unfold W.writeIndent; rw [hi]; rfl
  · exact text_inv h (S_text (wsOf_S i)).1 (S_text (wsOf_S i)).2 (by rw [litText]; rfl) rfl h.pendOk ⟨i, hi⟩ h.last

/-- what one call says, in the given situation -/
def sayOne (st : List (List Ch)) (b : Bool) : Call → List Item
  | .startElement n => [.start n]
  | .endElement => st.head?.toList.map .stop
  | .cdata t _ => t.map .char
  | .base64 d => (Base64.Spec.encode d).map (fun b => .char (b.setWidth 16))
  | .attribute n v => if b then [.attr n v] else []
  | _ => []

def nextStack (st : List (List Ch)) : Call → List (List Ch)
  | .startElement n => n :: st
  | .endElement => st.tail
  | _ => st

def nextFlag (b : Bool) : Call → Bool
  | .startElement _ => true
  | .attribute _ _ => b
  | _ => false

theorem saidFrom_cons (st : List (List Ch)) (b : Bool) (c : Call) (cs : List Call) :
    saidFrom st b (c :: cs) = sayOne st b c ++ saidFrom (nextStack st c) (nextFlag b c) cs := by
  cases c <;> cases st <;> cases b <;> simp [saidFrom, sayOne, nextStack, nextFlag]

/-- no indentation so far -/
def Flat (w : W) : Prop := w.last = some false ∧ ∀ b ∈ w.stack.map Elem.indent, b = false

/-- the result of a step -/
structure Step (w : W) (ts : List Token) (pend : Pend) (c : Call) (w' : W) (ts' : List Token) (pend' : Pend) (new : List Item) : Prop where
  inv : Inv w' ts' pend'
  namesEq : names w' = nextStack (names w) c
  flag : pend'.isSome = nextFlag pend.isSome c
  itemsEq : items ts' ++ pendItems pend' = items ts ++ pendItems pend ++ new
  said : Indented (sayOne (WriterProofs.names w) pend.isSome c) new
  flat : Flat w → isIndent c = false → Flat w' ∧ new = sayOne (WriterProofs.names w) pend.isSome c
  tag : c = .endElement → WriterProofs.names w ≠ [] → ∃ ts0 t, ts' = ts0 ++ [t] ∧ t.isTag = true

theorem indented_refl (l : List Item) : Indented l l := by
  induction l with
  | nil => exact .nil
  | cons a l ih => exact .same a ih

theorem indent_step {w : W} {ts : List Token} {pend : Pend} (h : Inv w ts pend) :
    ∃ w' ts', w.startIndent = .ok w' ∧ Step w ts pend .startIndent w' ts' none [] := by
  obtain ⟨ts', h1, h2, h3, h4, h5, h6⟩ := closeTag_inv h
  obtain ⟨i, hi⟩ := h1.indent
  refine ⟨{ w.closeTag with indent := some (i + 3), last := some true }, ts', ?_, ⟨⟨h1.out, h1.ok, h1.nolit, h1.namesOk, h1.pendOk, h1.nestEq, ⟨_, rfl⟩, ⟨_, rfl⟩⟩,
    h3, rfl, by simp [h2, pendItems], .nil, ?_, ?_⟩⟩
  · unfold W.startIndent; simp [hi]
  · intro _ hh; cases hh
  · intro hh; cases hh

theorem endIndent_step {w : W} {ts : List Token} {pend : Pend} (h : Inv w ts pend) :
    ∃ w' ts', w.endIndent = .ok w' ∧ Step w ts pend .endIndent w' ts' none [] := by
  obtain ⟨ts', h1, h2, h3, h4, h5, h6⟩ := closeTag_inv h
  obtain ⟨i, hi⟩ := h1.indent
  refine ⟨{ w.closeTag with indent := some (i - 3), last := some false }, ts', ?_, ⟨⟨h1.out, h1.ok, h1.nolit, h1.namesOk, h1.pendOk, h1.nestEq, ⟨_, rfl⟩, ⟨_, rfl⟩⟩,
    h3, rfl, by simp [h2, pendItems], .nil, ?_, ?_⟩⟩
  · unfold W.endIndent; simp [hi]
  · intro _ hh; cases hh
  · intro hh; cases hh

theorem openTag_inv {w : W} {ts : List Token} (h : Inv w ts none) (n : List Ch) (hn : NameOk n) (b : Bool) :
    Inv (w.openTag n b) ts (some (n, [])) := by
  refine ⟨?_, h.ok, h.nolit, ?_, ?_, ?_, h.indent, ⟨_, rfl⟩⟩
  · show w.out ++ [cLt] ++ n = _
    rw [h.out]; simp [pendSrc, k_lt]
  · intro m hm
    simp only [names, W.openTag, List.map_cons, List.mem_cons] at hm
    rcases hm with rfl | hm
    · exact hn
    · exact h.namesOk m hm
  · exact ⟨hn, by simp, by simp, ⟨n, b, false, false⟩, w.stack, rfl, rfl, rfl, h.pendOk⟩
  · rw [h.nestEq]; rfl

theorem startElement_step {w : W} {ts : List Token} {pend : Pend} (h : Inv w ts pend) (n : List Ch) (hn : NameOk n) :
    ∃ w' ts' new, w.startElement n = .ok w' ∧ Step w ts pend (.startElement n) w' ts' (some (n, [])) new := by
  obtain ⟨ts1, h1, h2, h3, h4, h5, h6⟩ := closeTag_inv h
  obtain ⟨b, hb⟩ := h1.last
  cases b with
  | false =>
    refine ⟨w.closeTag.openTag n false, ts1, [.start n], ?_, ⟨openTag_inv h1 n hn false, ?_, rfl, ?_, indented_refl _, ?_, ?_⟩⟩
    · unfold W.startElement; simp [hb]
    · show n :: names w.closeTag = n :: names w
      rw [h3]
    · simp [h2, pendItems]
    · intro hf _
      refine ⟨⟨rfl, ?_⟩, rfl⟩
      intro x hx
      simp only [W.openTag, List.map_cons, List.mem_cons] at hx
      rcases hx with rfl | hx
      · rfl
      · rw [h6] at hx; exact hf.2 x hx
    · intro hh; cases hh
  | true =>
    obtain ⟨ws, v, e, hws, hv, v1, v2, v3⟩ := writeIndent_inv h1
    refine ⟨v.openTag n true, ts1 ++ [.text (ws.map .lit)], ws.map Item.char ++ [Item.start n], ?_, ⟨openTag_inv hv n hn true, ?_, rfl, ?_, Indented.start (a := []) (b := []) ws n hws .nil, ?_, ?_⟩⟩
    · unfold W.startElement; simp [hb, e, bind, Except.bind, pure, Except.pure]
    · show n :: v.stack.map Elem.name = n :: names w
      rw [v1, ← h3]; rfl
    · rw [items_text, litItems, h2]; simp [pendItems]
    · intro hf
      rw [h5, hf.1] at hb
      cases hb
    · intro hh; cases hh

/-- closing the innermost element with an end tag -/
theorem endTag_inv {w : W} {ts : List Token} (h : Inv w ts none) (e : Elem) (st : List Elem) (hs : w.stack = e :: st) :
    Inv ((w.endTag e.name).popped st) (ts ++ [.close e.name []]) none := by
  have hnm : NameOk e.name := h.namesOk e.name (by simp [names, hs])
  refine ⟨?_, ?_, ?_, ?_, ?_, ?_, h.indent, ⟨_, rfl⟩⟩
  · show w.out ++ [cLt, cSlash] ++ e.name ++ [cGt] = _
    rw [h.out, src_append]; simp [src, Token.src, pendSrc, k_lt, k_slash, k_gt]
  · intro t ht
    rw [List.mem_append, List.mem_singleton] at ht
    rcases ht with ht | rfl
    · exact h.ok t ht
    · exact ⟨hnm, by simp⟩
  · intro t ht
    rw [List.mem_append, List.mem_singleton] at ht
    rcases ht with ht | rfl
    · exact h.nolit t ht
    · trivial
  · intro m hm
    exact h.namesOk m (by rw [names, hs]; exact List.mem_cons_of_mem _ hm)
  · intro x hx
    exact h.pendOk x (by rw [hs]; exact List.mem_cons_of_mem _ hx)
  · rw [nest_append, h.nestEq]
    simp [names, hs, Spec.nest, W.popped]

theorem endElement_step {w : W} {ts : List Token} {pend : Pend} (h : Inv w ts pend) :
    ∃ w' ts' new, w.endElement = .ok w' ∧ Step w ts pend .endElement w' ts' none new := by
  cases hs : w.stack with
  | nil =>
    have hp : pend = none := by
      cases pend with
      | none => rfl
      | some p => obtain ⟨_, _, _, e, st, h', _⟩ := h.pendOk; rw [hs] at h'; cases h'
    subst hp
    have hnil : names w = [] := by simp [names, hs]
    refine ⟨{ w with last := some false }, ts, [], ?_, ⟨⟨h.out, h.ok, h.nolit, h.namesOk, h.pendOk, h.nestEq, h.indent, ⟨_, rfl⟩⟩, ?_, rfl, by simp, ?_, ?_, ?_⟩⟩
    · unfold W.endElement; simp [hs]
    · show names w = (names w).tail
      rw [hnil]; rfl
    · rw [hnil]; exact .nil
    · intro hf _
      exact ⟨⟨rfl, hf.2⟩, by rw [hnil]; rfl⟩
    · intro _ hh; exact absurd hnil hh
  | cons e st =>
    have hnames : names w = e.name :: st.map Elem.name := by simp [names, hs]
    have hsay : sayOne (names w) pend.isSome .endElement = [.stop e.name] := by rw [hnames]; rfl
    cases pend with
    | some p =>
      obtain ⟨n, as⟩ := p
      obtain ⟨h1, h2, h2', e', st', hs', hn, hc, hst⟩ := h.pendOk
      rw [hs] at hs'
      cases hs'
      refine ⟨(w.write [cSlash, cGt]).popped st, ts ++ [.empty n as []], [.stop e.name], ?_,
        ⟨⟨?_, ?_, ?_, ?_, hst, ?_, h.indent, ⟨_, rfl⟩⟩, ?_, rfl, ?_, ?_, ?_, ?_⟩⟩
      · unfold W.endElement; simp [hs, hc]
      · show w.out ++ [cSlash, cGt] = _
        rw [h.out, src_append]; simp [src, Token.src, pendSrc, k_slash, k_gt]
      · intro t ht
        rw [List.mem_append, List.mem_singleton] at ht
        rcases ht with ht | rfl
        · exact h.ok t ht
        · exact ⟨h1, h2, by simp⟩
      · intro t ht
        rw [List.mem_append, List.mem_singleton] at ht
        rcases ht with ht | rfl
        · exact h.nolit t ht
        · exact h2'
      · intro m hm
        exact h.namesOk m (by rw [hnames]; exact List.mem_cons_of_mem _ hm)
      · rw [nest_append, h.nestEq]
        simp [Spec.nest, names, W.popped, hs]
      · rw [hnames]; rfl
      · rw [items_append]; simp [items, Token.items, pendItems, hn]
      · rw [hsay]; exact indented_refl _
      · intro hf _
        refine ⟨⟨rfl, ?_⟩, hsay.symm⟩
        intro x hx
        exact hf.2 x (by rw [hs]; exact List.mem_cons_of_mem _ hx)
      · intro _ _; exact ⟨_, _, rfl, rfl⟩
    | none =>
      have hc : e.hasContent = true := h.pendOk e (by rw [hs]; simp)
      by_cases hi : e.indent ∧ e.hasCharacters = false
      · obtain ⟨ws, v, ev, hws, hv, v1, v2, v3⟩ := writeIndent_inv h
        have hvs : v.stack = e :: st := by rw [v1, hs]
        refine ⟨(v.endTag e.name).popped st, _, ws.map .char ++ [.stop e.name], ?_, ⟨endTag_inv hv e st hvs, ?_, rfl, ?_, ?_, ?_, ?_⟩⟩
        · unfold W.endElement
          simp only [hs, hc, Bool.true_eq_false, if_false, if_pos hi, ev, bind, Except.bind, pure, Except.pure]
        · rw [hnames]; rfl
        · rw [items_append, items_text, litItems]; simp [items, Token.items, pendItems]
        · rw [hsay]; exact .stop ws e.name hws .nil
        · intro hf _
          have := hf.2 e.indent (by rw [hs]; simp)
          rw [this] at hi
          simp at hi
        · intro _ _; exact ⟨_, _, rfl, rfl⟩
      · refine ⟨(w.endTag e.name).popped st, _, [.stop e.name], ?_, ⟨endTag_inv h e st hs, ?_, rfl, ?_, ?_, ?_, ?_⟩⟩
        · unfold W.endElement
          simp only [hs, hc, Bool.true_eq_false, if_false, if_neg hi]
        · rw [hnames]; rfl
        · rw [items_append]; simp [items, Token.items, pendItems]
        · rw [hsay]; exact indented_refl _
        · intro hf _
          refine ⟨⟨rfl, ?_⟩, hsay.symm⟩
          intro x hx
          exact hf.2 x (by rw [hs]; exact List.mem_cons_of_mem _ hx)
        · intro _ _; exact ⟨_, _, rfl, rfl⟩

theorem piece_text (s : List Ch) : (Token.text (s.map pieceOf)).Ok ∧ NoLit (s.map pieceOf) := by
  refine ⟨?_, ?_⟩
  · intro c hc
    rw [List.mem_map] at hc
    obtain ⟨d, _, hd⟩ := hc
    obtain ⟨rfl, h1, h2, _⟩ := pieceOf_lit hd
    exact ⟨h2, h1⟩
  · intro c hc
    rw [List.mem_map] at hc
    obtain ⟨d, _, hd⟩ := hc
    obtain ⟨rfl, _, _, _, _, h⟩ := pieceOf_lit hd
    exact h

theorem piece_items (s : List Ch) : (s.map pieceOf).map (fun p => Item.char p.char) = s.map .char := by
  simp [Function.comp_def, pieceOf_char]

theorem markCharacters_same (w : W) : w.markCharacters.out = w.out ∧ names w.markCharacters = names w ∧
    w.markCharacters.indent = w.indent ∧ w.markCharacters.last = w.last ∧
    w.markCharacters.stack.map Elem.hasContent = w.stack.map Elem.hasContent ∧
    w.markCharacters.stack.map Elem.indent = w.stack.map Elem.indent := by
  unfold W.markCharacters
  split
  · simp
  · rename_i e st hs
    split <;> simp [names, hs]

theorem content_of_map {l m : List Elem} (h : l.map Elem.hasContent = m.map Elem.hasContent) (hm : ∀ e ∈ m, e.hasContent = true) :
    ∀ e ∈ l, e.hasContent = true := by
  intro e he
  have : e.hasContent ∈ m.map Elem.hasContent := by rw [← h]; exact List.mem_map_of_mem he
  rw [List.mem_map] at this
  obtain ⟨x, hx, hxe⟩ := this
  rw [← hxe]; exact hm x hx

theorem cdata_step {w : W} {ts : List Token} {pend : Pend} (h : Inv w ts pend) (s : List Ch) :
    ∃ w' ts', w.writeCData s true = .ok w' ∧ Step w ts pend (.cdata s true) w' ts' none (s.map .char) := by
  obtain ⟨ts1, h1, h2, h3, h4, h5, h6⟩ := closeTag_inv h
  obtain ⟨m1, m2, m3, m4, m5, m6⟩ := markCharacters_same w.closeTag
  refine ⟨{ w.closeTag.markCharacters.write ((s.map pieceOf).flatMap Piece.src) with last := some false }, ts1 ++ [.text (s.map pieceOf)], ?_,
    ⟨text_inv h1 (piece_text s).1 (piece_text s).2 ?_ ?_ ?_ ?_ ⟨_, rfl⟩, ?_, rfl, ?_, indented_refl _, ?_, ?_⟩⟩
  · unfold W.writeCData; simp [encode_eq, bind, Except.bind, pure, Except.pure]
  · show w.closeTag.markCharacters.out ++ _ = _
    rw [m1]
  · exact m2
  · exact content_of_map m5 h1.pendOk
  · obtain ⟨i, hi⟩ := h1.indent
    exact ⟨i, by rw [← hi, ← m3]; rfl⟩
  · show names w.closeTag.markCharacters = names w
    rw [m2, h3]
  · rw [items_text, piece_items, h2]; simp [pendItems]
  · intro hf _
    refine ⟨⟨rfl, ?_⟩, rfl⟩
    intro b hb
    change b ∈ w.closeTag.markCharacters.stack.map Elem.indent at hb
    rw [m6, h6] at hb
    exact hf.2 b hb
  · intro hh; cases hh

theorem letter_plain (n : Nat) : ((Base64.Spec.letter n).setWidth 16 : Ch) ∉ marks := by
  have h : ∀ m : Nat, m < 256 → m ≠ 0x26 → m ≠ 0x3C → m ≠ 0x3E → m ≠ 0x22 → m ≠ 0x27 → ((BitVec.ofNat 8 m).setWidth 16 : Ch) ∉ marks := by
    intro m h0 h1 h2 h3 h4 h5 hm
    simp only [marks, List.mem_cons, List.not_mem_nil, or_false] at hm
    have key : ((BitVec.ofNat 8 m).setWidth 16 : Ch).toNat = m := by simp; omega
    rcases hm with hm | hm | hm | hm | hm <;> (rw [hm] at key; simp [cAmp, cLt, cGt, cQuot, cApos] at key; omega)
  unfold Base64.Spec.letter
  refine h _ ?_ ?_ ?_ ?_ ?_ ?_ <;> (repeat' split) <;> omega

theorem base64_plain (d : List Byte) : ∀ b ∈ Base64.Spec.encode d, (b.setWidth 16 : Ch) ∉ marks := by
  have hp : (Base64.Spec.pad.setWidth 16 : Ch) ∉ marks := by decide
  intro b hb
  fun_induction Base64.Spec.encode d with
  | case1 => simp at hb
  | case2 a n =>
    simp only [List.mem_cons, List.not_mem_nil, or_false] at hb
    rcases hb with rfl | rfl | rfl | rfl
    all_goals first | exact letter_plain _ | exact hp
  | case3 a c n =>
    simp only [List.mem_cons, List.not_mem_nil, or_false] at hb
    rcases hb with rfl | rfl | rfl | rfl
    all_goals first | exact letter_plain _ | exact hp
  | case4 a c e t n ih =>
    simp only [List.mem_cons] at hb
    rcases hb with rfl | rfl | rfl | rfl | hb
    all_goals first | exact letter_plain _ | exact ih hb

theorem closeTagCharacters_same (w : W) : w.closeTagCharacters.out = w.closeTag.out ∧ names w.closeTagCharacters = names w.closeTag ∧
    w.closeTagCharacters.indent = w.closeTag.indent ∧ w.closeTagCharacters.last = w.closeTag.last ∧
    w.closeTagCharacters.stack.map Elem.hasContent = w.closeTag.stack.map Elem.hasContent ∧
    w.closeTagCharacters.stack.map Elem.indent = w.closeTag.stack.map Elem.indent := by
  unfold W.closeTagCharacters W.closeTag
  split
  · simp
  · rename_i e st hs
    split <;> simp [names, W.write]

theorem base64_step {w : W} {ts : List Token} {pend : Pend} (h : Inv w ts pend) (d : List Byte) :
    ∃ w' ts', w.writeBase64 d = .ok w' ∧ Step w ts pend (.base64 d) w' ts' none ((Base64.Spec.encode d).map (fun b => .char (b.setWidth 16))) := by
  obtain ⟨ts1, h1, h2, h3, h4, h5, h6⟩ := closeTag_inv h
  obtain ⟨m1, m2, m3, m4, m5, m6⟩ := closeTagCharacters_same w
  obtain ⟨s, hs⟩ : ∃ s : List Ch, s = (Base64.Spec.encode d).map (fun b => b.setWidth 16) := ⟨_, rfl⟩
  have hpl : ∀ c ∈ s, c ∉ marks := by
    intro c hc
    rw [hs, List.mem_map] at hc
    obtain ⟨b, hb, rfl⟩ := hc
    exact base64_plain d b hb
  have hsi : (Base64.Spec.encode d).map (fun b => Item.char (b.setWidth 16)) = s.map .char := by rw [hs]; simp [Function.comp_def]
  refine ⟨{ w.closeTagCharacters.write s with last := some false }, ts1 ++ [.text (s.map pieceOf)], ?_,
    ⟨text_inv h1 (piece_text s).1 (piece_text s).2 ?_ ?_ ?_ ?_ ⟨_, rfl⟩, ?_, rfl, ?_, indented_refl _, ?_, ?_⟩⟩
  · unfold W.writeBase64
    simp [Base64.encode_rfc4648, bind, Except.bind, pure, Except.pure, hs]
  · rw [plain_src s hpl]
    show w.closeTagCharacters.out ++ _ = _
    rw [m1]
  · exact m2
  · exact content_of_map m5 h1.pendOk
  · obtain ⟨i, hi⟩ := h1.indent
    exact ⟨i, by rw [← hi, ← m3]; rfl⟩
  · show names w.closeTagCharacters = names w
    rw [m2, h3]
  · rw [items_text, piece_items, h2, hsi]; simp [pendItems]
  · intro hf _
    refine ⟨⟨rfl, ?_⟩, rfl⟩
    intro b hb
    change b ∈ w.closeTagCharacters.stack.map Elem.indent at hb
    rw [m6, h6] at hb
    exact hf.2 b hb
  · intro hh; cases hh

theorem attribute_step {w : W} {ts : List Token} {pend : Pend} (h : Inv w ts pend) (n s : List Ch) (hn : NameOk n) :
    ∃ w' pend' new, w.writeAttribute n s = .ok w' ∧ Step w ts pend (.attribute n s) w' ts pend' new := by
  cases pend with
  | none =>
    refine ⟨w, none, [], ?_, ⟨h, rfl, rfl, by simp, indented_refl _, fun hf _ => ⟨hf, rfl⟩, by intro hh; cases hh⟩⟩
    unfold W.writeAttribute
    split
    · rfl
    · rename_i e st hs
      rw [if_pos (h.pendOk e (by rw [hs]; simp))]
  | some p =>
    obtain ⟨m, as⟩ := p
    obtain ⟨h1, h2, h2', e, st, hs, hnm, hc, hst⟩ := h.pendOk
    obtain ⟨a, ha⟩ : ∃ a : Attr, a = ⟨[cSpace], n, [], [], cQuot, s.map pieceOf⟩ := ⟨_, rfl⟩
    have haOk : a.Ok := by
      rw [ha]
      refine ⟨⟨by simp, ?_⟩, hn, by simp, by simp, Or.inl rfl, ?_⟩
      · intro c hc
        rw [List.mem_singleton] at hc
        exact Or.inl hc
      · intro c hc
        rw [List.mem_map] at hc
        obtain ⟨d, _, hd⟩ := hc
        obtain ⟨rfl, q1, q2, q3, q4, _⟩ := pieceOf_lit hd
        exact ⟨q2, q1, q4⟩
    have haNo : AttrNoLit a := by rw [ha]; exact (piece_text s).2
    have hval : a.items = .attr n s := by
      rw [ha]; simp [Attr.items, Function.comp_def, pieceOf_char]
    refine ⟨{ ((((w.write [cSpace]).write n).write [cEq, cQuot]).write ((s.map pieceOf).flatMap Piece.src)).write [cQuot] with last := some false },
      some (m, as ++ [a]), [.attr n s], ?_, ⟨⟨?_, h.ok, h.nolit, h.namesOk, ?_, h.nestEq, h.indent, ⟨_, rfl⟩⟩, rfl, rfl, ?_, indented_refl _, ?_, ?_⟩⟩
    · unfold W.writeAttribute
      simp only [hs, hc, Bool.false_eq_true, if_false, encode_eq, bind, Except.bind, pure, Except.pure]
    · show w.out ++ [cSpace] ++ n ++ [cEq, cQuot] ++ (s.map pieceOf).flatMap Piece.src ++ [cQuot] = _
      rw [h.out]
      simp [pendSrc, Attr.src, ha, k_eq]
    · refine ⟨h1, ?_, ?_, e, st, hs, hnm, hc, hst⟩
      · intro x hx
        rw [List.mem_append, List.mem_singleton] at hx
        rcases hx with hx | rfl
        · exact h2 x hx
        · exact haOk
      · intro x hx
        rw [List.mem_append, List.mem_singleton] at hx
        rcases hx with hx | rfl
        · exact h2' x hx
        · exact haNo
    · simp [pendItems, hval]
    · intro hf _
      exact ⟨⟨rfl, hf.2⟩, rfl⟩
    · intro hh; cases hh

theorem step {w : W} {ts : List Token} {pend : Pend} (h : Inv w ts pend) (c : Call) (hc : CallOk c) :
    ∃ w' ts' pend' new, c.exec w = .ok w' ∧ Step w ts pend c w' ts' pend' new := by
  cases c with
  | startIndent => obtain ⟨w', ts', h1, h2⟩ := indent_step h; exact ⟨w', ts', _, _, h1, h2⟩
  | endIndent => obtain ⟨w', ts', h1, h2⟩ := endIndent_step h; exact ⟨w', ts', _, _, h1, h2⟩
  | startElement n => obtain ⟨w', ts', new, h1, h2⟩ := startElement_step h n hc; exact ⟨w', ts', _, _, h1, h2⟩
  | endElement => obtain ⟨w', ts', new, h1, h2⟩ := endElement_step h; exact ⟨w', ts', _, _, h1, h2⟩
  | cdata s e =>
    have : e = true := hc
    subst this
    obtain ⟨w', ts', h1, h2⟩ := cdata_step h s; exact ⟨w', ts', _, _, h1, h2⟩
  | base64 d => obtain ⟨w', ts', h1, h2⟩ := base64_step h d; exact ⟨w', ts', _, _, h1, h2⟩
  | «attribute» n s => obtain ⟨w', p', new, h1, h2⟩ := attribute_step h n s hc; exact ⟨w', ts, _, _, h1, h2⟩

theorem indented_append {a b c d : List Item} (h : Indented a b) (h' : Indented c d) : Indented (a ++ c) (b ++ d) := by
  induction h with
  | nil => exact h'
  | same x _ ih => exact .same x ih
  | start ws n hw _ ih => rw [List.append_assoc]; exact .start ws n hw ih
  | stop ws n hw _ ih => rw [List.append_assoc]; exact .stop ws n hw ih

theorem run_inv (cs : List Call) (hcs : ∀ c ∈ cs, CallOk c) : ∀ (w : W) (ts : List Token) (pend : Pend), Inv w ts pend →
    ∃ w' ts' pend' new, runCalls w cs = .ok w' ∧ Inv w' ts' pend' ∧ names w' = openAfter (names w) cs ∧
      items ts' ++ pendItems pend' = items ts ++ pendItems pend ++ new ∧ Indented (saidFrom (names w) pend.isSome cs) new ∧
      (Flat w → (∀ c ∈ cs, isIndent c = false) → new = saidFrom (names w) pend.isSome cs) := by
  induction cs with
  | nil =>
    intro w ts pend h
    exact ⟨w, ts, pend, [], rfl, h, rfl, by simp, by cases pend <;> exact .nil, fun _ _ => by cases pend <;> simp [saidFrom]⟩
  | cons c cs ih =>
    intro w ts pend h
    obtain ⟨w1, ts1, p1, new1, e1, s1⟩ := step h c (hcs c (by simp))
    obtain ⟨w2, ts2, p2, new2, e2, i2, n2, t2, d2, f2⟩ := ih (fun x hx => hcs x (by simp [hx])) w1 ts1 p1 s1.inv
    have hopen : openAfter (names w) (c :: cs) = openAfter (nextStack (names w) c) cs := by cases c <;> rfl
    refine ⟨w2, ts2, p2, new1 ++ new2, ?_, i2, ?_, ?_, ?_, ?_⟩
    · simp only [runCalls, e1, bind, Except.bind]; exact e2
    · rw [n2, s1.namesEq, hopen]
    · rw [t2, s1.itemsEq]; simp
    · rw [saidFrom_cons, ← s1.namesEq, ← s1.flag]; exact indented_append s1.said d2
    · intro hf hi
      obtain ⟨hf1, hn1⟩ := s1.flat hf (hi c (by simp))
      rw [saidFrom_cons, ← s1.namesEq, ← s1.flag, hn1, f2 hf1 (fun x hx => hi x (by simp [hx]))]

theorem inv_start : Inv W.new.startDocument [] none :=
  ⟨rfl, by simp, by simp, by simp [names, W.startDocument, W.new, W.write], (by intro e he; cases he), rfl, ⟨_, rfl⟩, ⟨_, rfl⟩⟩

theorem flat_start : Flat W.new.startDocument := ⟨rfl, by intro b hb; cases hb⟩

end Verif.Xml.WriterProofs
