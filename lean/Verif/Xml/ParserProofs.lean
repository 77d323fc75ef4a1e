import Verif.Xml.Spec
import Verif.Str.SearchProps
import Verif.Str.PartProps
import Verif.Str.EditProps
/-
Proof: the parser delivers every document of the specified fragment.
-/
namespace Verif.Xml.ParserProofs
open Verif Verif.Str Verif.Xml Verif.Xml.Spec

/-- what the parser makes of a piece: `&apos;` disappears -/
def delivered : Piece → List Ch
  | .lit c => [c]
  | .ref .apos => []
  | .ref e => [e.char]

theorem k_lt : chr '<' = cLt := rfl
theorem k_gt : chr '>' = cGt := rfl
theorem k_amp : chr '&' = cAmp := rfl
theorem k_quot : chr '"' = cQuot := rfl
theorem k_apos : chr '\'' = cApos := rfl
theorem k_slash : chr '/' = cSlash := rfl
theorem k_eq : chr '=' = cEq := rfl
theorem k_semi : chr ';' = cSemi := rfl
theorem k_colon : chr ':' = cColon := rfl

structure NameCh (c : Ch) : Prop where
  ws : isWhitespace c = false
  lt : c ≠ cLt
  gt : c ≠ cGt
  amp : c ≠ cAmp
  eq : c ≠ cEq
  slash : c ≠ cSlash
  quot : c ≠ cQuot
  apos : c ≠ cApos

theorem nameCh {n : List Ch} (h : NameOk n) : ∀ c ∈ n, NameCh c := by
  intro c hc
  obtain ⟨h1, h2, h3, h4, h5, h6, h7, h8, h9, h10⟩ := h.2 c hc
  refine ⟨?_, h4, h5, h6, h7, h8, h9, h10⟩
  simp only [IsS, not_or] at h1
  obtain ⟨a1, a2, a3, a4⟩ := h1
  simp only [isWhitespace, Bool.or_eq_false_iff, beq_eq_false_iff_ne]
  exact ⟨⟨⟨⟨⟨a1, a3⟩, a4⟩, a2⟩, h2⟩, h3⟩

theorem s_ws {c : Ch} (h : IsS c) : isWhitespace c = true := by
  rcases h with rfl | rfl | rfl | rfl <;> decide

theorem ws_ne {c : Ch} (h : isWhitespace c = true) : c ≠ cLt ∧ c ≠ cGt ∧ c ≠ cAmp ∧ c ≠ cEq ∧ c ≠ cSlash ∧ c ≠ cQuot ∧ c ≠ cApos := by
  refine ⟨?_, ?_, ?_, ?_, ?_, ?_, ?_⟩ <;> (rintro rfl; revert h; decide)

/-! ### entities -/

theorem readEscape_ok (n r : List Ch) (h : cSemi ∉ n) : readEscape (n ++ cSemi :: r) = .ok (n ++ [cSemi], r) := by
  induction n with
  | nil => simp [readEscape]
  | cons c n ih =>
    simp only [List.mem_cons, not_or] at h
    rw [List.cons_append, readEscape, if_pos ⟨fun e => h.1 e.symm, by simp⟩, ih h.2]
    rfl

theorem entity_semi (e : Entity) : cSemi ∉ e.name := by cases e <;> decide

theorem valueEntity_ok (e : Entity) : valueEntity (e.name ++ [cSemi]) = delivered (.ref e) := by
  cases e <;> decide

theorem textEntity_ok (e : Entity) : textEntity (e.name ++ [cSemi]) = delivered (.ref e) := by
  cases e <;> decide

/-! ### parseTagString -/

theorem tag_name (n : List Ch) (hn : ∀ c ∈ n, NameCh c) : ∀ (t : T) (r : List Ch), t.inValue = false →
    tagLoop t (n ++ r) = tagLoop { t with token := t.token ++ n } r := by
  induction n with
  | nil => intro t r _; simp
  | cons c n ih =>
    intro t r hv
    have hc := hn c (by simp)
    rw [List.cons_append, tagLoop, if_neg (by simp [hc.quot, hc.apos]), if_neg (by simp [hc.amp]),
      if_neg (by simp [hc.ws, hc.eq, hc.slash]), ih (fun x hx => hn x (by simp [hx])) _ _ (by exact hv)]
    simp

def isSep (c : Ch) : Prop := isWhitespace c = true ∨ c = cEq ∨ c = cSlash

theorem tag_sep1 (c : Ch) (hc : isSep c) (t : T) (r : List Ch) (hv : t.inValue = false) :
    tagLoop t (c :: r) = tagLoop t.separator r := by
  have h1 : ¬ (c = cQuot ∨ c = cApos) := by
    rintro (rfl | rfl) <;> revert hc <;> unfold isSep <;> decide
  have h2 : ¬ (c = cAmp ∧ t.inValue = true) := by simp [hv]
  rw [tagLoop, if_neg h1, if_neg h2, if_pos ⟨hc, hv⟩]

theorem sep_inValue (t : T) : t.separator.inValue = t.inValue := by
  unfold T.separator; (repeat' split) <;> rfl

theorem sep_token (t : T) : t.separator.token = [] := by
  unfold T.separator
  split
  · (repeat' split) <;> rfl
  · rename_i h; exact List.length_eq_zero_iff.1 (by omega)

theorem sep_idle (t : T) (h : t.token = []) : t.separator = t := by
  unfold T.separator; rw [if_neg (by simp [h])]

theorem tag_seps (s : List Ch) (hs : ∀ c ∈ s, isSep c) : ∀ (t : T) (r : List Ch), t.inValue = false →
    tagLoop t (s ++ r) = tagLoop (if s = [] then t else t.separator) r := by
  induction s with
  | nil => intro t r _; simp
  | cons c s ih =>
    intro t r hv
    rw [List.cons_append, tag_sep1 c (hs c (by simp)) t _ hv, ih (fun x hx => hs x (by simp [hx])) _ _ (by rw [sep_inValue]; exact hv),
      sep_idle _ (sep_token t), ite_self, if_neg (by simp)]

theorem tag_value (v : List Piece) (q : Ch) (hv : ∀ c, Piece.lit c ∈ v → c ≠ cAmp ∧ c ≠ q) :
    ∀ (t : T) (r : List Ch), t.inValue = true → t.opener = q →
    tagLoop t (v.flatMap Piece.src ++ r) = tagLoop { t with token := t.token ++ v.flatMap delivered } r := by
  induction v with
  | nil => intro t r _ _; simp
  | cons p v ih =>
    intro t r h1 h2
    have ih' := ih (fun c hc => hv c (by simp [hc]))
    rw [List.flatMap_cons, List.append_assoc, List.flatMap_cons]
    cases p with
    | lit c =>
      obtain ⟨ha, hb⟩ := hv c (by simp)
      simp only [Piece.src, delivered, List.cons_append, List.nil_append]
      rw [tagLoop]
      by_cases hc : c = cQuot ∨ c = cApos
      · rw [if_pos hc]
        have : t.quote c = { t with token := t.token ++ [c] } := by
          unfold T.quote
          rw [if_neg (by simp [h1]), if_neg (by rw [h2]; exact fun e => hb e.symm)]
        rw [this, ih' _ _ (by exact h1) (by exact h2)]
        simp
      · rw [if_neg hc, if_neg (by simp [ha]), if_neg (by simp [h1]), ih' _ _ (by exact h1) (by exact h2)]
        simp
    | ref e =>
      simp only [Piece.src]
      have : chr '&' :: e.name ++ [chr ';'] ++ (v.flatMap Piece.src ++ r) = cAmp :: (e.name ++ cSemi :: (v.flatMap Piece.src ++ r)) := by
        simp [k_amp, k_semi]
      rw [this, tagLoop, if_neg (by decide), if_pos ⟨rfl, h1⟩]
      have hr := readEscape_ok e.name (v.flatMap Piece.src ++ r) (entity_semi e)
      split
      · rename_i e1 r1 h3
        rw [hr] at h3
        cases h3
        rw [valueEntity_ok, ih' _ _ (by exact h1) (by exact h2)]
        simp
      · rename_i h3; rw [hr] at h3; cases h3

/-- state between attributes: the tag name is known, a new attribute can start -/
structure Between (t : T) : Prop where
  inValue : t.inValue = false
  step : t.step = 1
  token : t.token = []

theorem tag_attr (a : Attr) (ha : a.Ok) (t : T) (r : List Ch) (hv : t.inValue = false) (hb : Between t.separator) :
    ∃ t', tagLoop t (a.src ++ r) = tagLoop t' r ∧ Between t' ∧ t'.tname = t.separator.tname ∧
      t'.attribs = t.separator.attribs.add a.name (a.value.flatMap delivered) := by
  obtain ⟨hsp, hname, hsp1, hsp2, hq, hval⟩ := ha
  have hS : ∀ s : List Ch, (∀ c ∈ s, IsS c) → ∀ c ∈ s, isSep c := fun s h c hc => Or.inl (s_ws (h c hc))
  unfold Attr.src
  simp only [List.append_assoc, List.cons_append, List.nil_append]
  rw [tag_seps a.sp (hS _ hsp.2) t _ hv, if_neg hsp.1]
  obtain ⟨s, hs⟩ : ∃ s, s = t.separator := ⟨_, rfl⟩
  rw [← hs] at hb ⊢
  rw [tag_name a.name (nameCh hname) s _ hb.inValue, hb.token, List.nil_append, k_eq]
  obtain ⟨u, hu⟩ : ∃ u, u = { s with token := a.name } := ⟨_, rfl⟩
  have hlen : a.name.length > 0 := by
    have := hname.1
    cases h : a.name with
    | nil => exact absurd h this
    | cons => simp
  have husep : u.separator = { s with aname := a.name, step := 2, token := [] } := by
    subst hu
    unfold T.separator
    rw [if_pos hlen, if_neg (by show s.step ≠ 0; rw [hb.step]; decide), if_pos (by exact hb.step)]
  have huv : u.inValue = false := by subst hu; exact hb.inValue
  rw [← hu]
  have happ : ∀ x : List Ch, a.sp1 ++ cEq :: (a.sp2 ++ x) = (a.sp1 ++ cEq :: a.sp2) ++ x := by intro x; simp
  rw [happ, tag_seps _ _ u _ huv, if_neg (by simp), husep]
  · have hq' : a.quote = cQuot ∨ a.quote = cApos := hq
    rw [tagLoop, if_pos hq']
    obtain ⟨w, hw⟩ : ∃ w, w = T.quote { s with aname := a.name, step := 2, token := [] } a.quote := ⟨_, rfl⟩
    have hw' : w = { s with aname := a.name, step := 2, token := [], inValue := true, opener := a.quote } := by
      rw [hw]; unfold T.quote; rw [if_pos (by exact hb.inValue)]
    rw [← hw]
    rw [tag_value a.value a.quote (fun c hc => ⟨(hval c hc).2.1, (hval c hc).2.2⟩) w _ (by rw [hw']) (by rw [hw'])]
    rw [tagLoop, if_pos hq']
    refine ⟨_, rfl, ?_⟩
    have : T.quote { w with token := w.token ++ a.value.flatMap delivered } a.quote =
        { s with aname := a.name, step := 1, token := [], inValue := false, opener := a.quote,
                 attribs := s.attribs.add a.name (a.value.flatMap delivered) } := by
      rw [hw']
      unfold T.quote
      rw [if_neg (by simp), if_pos rfl, if_pos rfl]
      simp
    rw [this]
    exact ⟨⟨rfl, rfl, rfl⟩, rfl, rfl⟩
  · intro c hc
    simp only [List.mem_append, List.mem_cons] at hc
    rcases hc with hc | rfl | hc
    · exact hS _ hsp1 c hc
    · exact Or.inr (Or.inl rfl)
    · exact hS _ hsp2 c hc

def addAll (a : Attrs) (as : List Attr) : Attrs :=
  as.foldl (fun a x => a.add x.name (x.value.flatMap delivered)) a

theorem tag_attrs (as : List Attr) (ha : ∀ a ∈ as, a.Ok) : ∀ (t : T) (r : List Ch), t.inValue = false → Between t.separator →
    ∃ t', tagLoop t (as.flatMap Attr.src ++ r) = tagLoop t' r ∧ t'.inValue = false ∧ Between t'.separator ∧
      t'.separator.tname = t.separator.tname ∧ t'.separator.attribs = addAll t.separator.attribs as := by
  induction as with
  | nil => intro t r h1 h2; exact ⟨t, by simp, h1, h2, rfl, rfl⟩
  | cons a as ih =>
    intro t r h1 h2
    obtain ⟨t1, e1, b1, n1, a1⟩ := tag_attr a (ha a (by simp)) t (as.flatMap Attr.src ++ r) h1 h2
    have hs := sep_idle t1 b1.token
    obtain ⟨t2, e2, v2, b2, n2, a2⟩ := ih (fun x hx => ha x (by simp [hx])) t1 r b1.inValue (by rw [hs]; exact b1)
    refine ⟨t2, ?_, v2, b2, ?_, ?_⟩
    · rw [List.flatMap_cons, List.append_assoc, e1, e2]
    · rw [n2, hs, n1]
    · rw [a2, hs, a1]; rfl

/-- name, attributes, then separators up to the end of the line -/
theorem tag_whole (n : List Ch) (hn : NameOk n) (as : List Attr) (ha : ∀ a ∈ as, a.Ok) (s : List Ch) (hs : ∀ c ∈ s, isSep c)
    (hne : s ≠ []) : ∃ t, tagLoop T.init (n ++ as.flatMap Attr.src ++ s) = .ok t ∧ t.tname = n ∧ t.attribs = addAll Attrs.empty as := by
  rw [List.append_assoc, tag_name n (nameCh hn) T.init _ rfl]
  have hlen : n.length > 0 := by
    cases n with
    | nil => exact absurd rfl hn.1
    | cons => simp
  have hsep : T.separator { T.init with token := T.init.token ++ n } = { T.init with tname := n, step := 1 } := by
    unfold T.separator
    rw [if_pos (by simpa [T.init] using hlen), if_pos (by rfl)]
    simp [T.init]
  obtain ⟨t, e, v, b, h1, h2⟩ := tag_attrs as ha { T.init with token := T.init.token ++ n } s rfl (by rw [hsep]; exact ⟨rfl, rfl, rfl⟩)
  rw [hsep] at h1 h2
  have h3 := tag_seps s hs t [] v
  rw [List.append_nil, if_neg hne] at h3
  rw [e, h3, tagLoop]
  exact ⟨_, rfl, h1, h2⟩

/-! local names -/

theorem localName_ok (q : List Ch) : ∃ l, localNameOf q = .ok l ∧ IsLocalPart q l := by
  obtain ⟨s, e1, w, c1⟩ := EditProps.constructed q
  obtain ⟨i, e2, hi⟩ := SearchProps.lastIndexOfChar_spec w cColon
  obtain ⟨r, e3, _, c3⟩ := PartProps.substringFrom_spec w (i + 1)
  refine ⟨Str.chars r, ?_, ?_⟩
  · simp only [localNameOf, bind, Except.bind, pure, Except.pure, e1, e2, e3]
  · rw [c3, c1]
    have hl : (s.len : Int) = q.length := by rw [← c1, chars_length w]
    rw [c1] at hi
    rcases hi with ⟨rfl, h⟩ | ⟨a, rfl, h1, h2, h3⟩
    · refine ⟨?_, Or.inl rfl⟩
      intro hm
      have hm' : chr ':' ∈ q := by simpa using hm
      obtain ⟨k, hk, e⟩ := List.getElem_of_mem hm'
      exact h k (by omega) (by simp [SearchProps.CharAt, hk, e]; rfl)
    · have ha : a < q.length := by omega
      have hq : q = q.take a ++ chr ':' :: q.drop (a + 1) := by
        have h4 : q[a]? = some cColon := h2
        rw [List.getElem?_eq_getElem ha] at h4
        cases h4' : q[a] with
        | _ => 
          have h5 : q[a] = cColon := by simpa using h4
          rw [k_colon, ← h5, ← List.drop_eq_getElem_cons ha, List.take_append_drop]
      have hd : ((a : Int) + 1).toNat = a + 1 := by omega
      rw [hd]
      refine ⟨?_, Or.inr ⟨q.take a, hq⟩⟩
      intro hm
      obtain ⟨k, hk, e⟩ := List.getElem_of_mem hm
      rw [List.length_drop] at hk
      refine h3 (a + 1 + k) (by omega) (by omega) ?_
      rw [List.getElem_drop] at e
      simp only [SearchProps.CharAt]
      rw [List.getElem?_eq_getElem (by omega), e]; rfl

/-! the three kinds of tags -/

/-- what the parser reports for a token -/
def got : Token → List Item
  | .open_ n as _ => .start n :: as.map (fun a => .attr a.name (a.value.flatMap delivered))
  | .empty n as _ => .start n :: as.map (fun a => .attr a.name (a.value.flatMap delivered)) ++ [.stop n]
  | .close n _ => [.stop n]
  | .text d => (d.flatMap delivered).map .char

theorem addAll_names (as : List Attr) : ∀ a : Attrs, (addAll a as).names = a.names ++ as.map Attr.name := by
  induction as with
  | nil => intro a; simp [addAll]
  | cons x as ih =>
    intro a
    have : addAll a (x :: as) = addAll (a.add x.name (x.value.flatMap delivered)) as := rfl
    rw [this, ih]; simp [Attrs.add]

theorem addAll_values (as : List Attr) : ∀ a : Attrs, (addAll a as).values = a.values ++ as.map (fun x => x.value.flatMap delivered) := by
  induction as with
  | nil => intro a; simp [addAll]
  | cons x as ih =>
    intro a
    have : addAll a (x :: as) = addAll (a.add x.name (x.value.flatMap delivered)) as := rfl
    rw [this, ih]; simp [Attrs.add]

theorem zip_map_map {α β γ : Type} (f : α → β) (g : α → γ) (l : List α) : (l.map f).zip (l.map g) = l.map (fun x => (f x, g x)) := by
  induction l with
  | nil => rfl
  | cons a l ih => simp [ih]

theorem addAll_items (as : List Attr) :
    ((addAll Attrs.empty as).names.zip (addAll Attrs.empty as).values).map (fun x => Item.attr x.1 x.2) =
      as.map (fun a => Item.attr a.name (a.value.flatMap delivered)) := by
  rw [addAll_names, addAll_values]
  simp [Attrs.empty, zip_map_map, Function.comp_def]

theorem dropWhile_skip {s r : List Ch} {z : Ch} (hs : ∀ c ∈ s, isWhitespace c = true) (hz : isWhitespace z = false) :
    (s ++ z :: r).dropWhile isWhitespace = z :: r := by
  induction s with
  | nil => simp [hz]
  | cons a s ih => simp [hs a (by simp), ih (fun c hc => hs c (by simp [hc]))]

theorem pts_of {body zr r : List Ch} {z a : Ch} {t : T} {ev : List Event}
    (hz : (body ++ [cSpace]).reverse.dropWhile isWhitespace = z :: zr)
    (ha : (body ++ [cSpace]).dropWhile isWhitespace = a :: r)
    (ht : tagLoop T.init (if a = cSlash then r else a :: r) = .ok t)
    (hev : tagEvents (if a = cSlash then 1 else if z = cSlash then 2 else 0) t = .ok ev) :
    parseTagString body = .ok ev := by
  unfold parseTagString
  simp only [hz, ha, ht, bind, Except.bind]
  exact hev

theorem space_ws : isWhitespace cSpace = true := by decide

/-- a text ending in a character other than white space and `/` -/
def SolidEnd (l : List Ch) : Prop := ∃ i z, l = i ++ [z] ∧ isWhitespace z = false ∧ z ≠ cSlash

theorem solid_name {n : List Ch} (h : NameOk n) : SolidEnd n := by
  have hc := nameCh h
  have : n = n.dropLast ++ [n.getLast h.1] := (List.dropLast_append_getLast h.1).symm
  have hl := hc _ (List.getLast_mem h.1)
  exact ⟨_, _, this, hl.ws, hl.slash⟩

theorem quote_solid {q : Ch} (h : q = cQuot ∨ q = cApos) : isWhitespace q = false ∧ q ≠ cSlash := by
  rcases h with rfl | rfl <;> decide

theorem solid_attrs {n : List Ch} (h : NameOk n) (as : List Attr) (ha : ∀ a ∈ as, a.Ok) : SolidEnd (n ++ as.flatMap Attr.src) := by
  cases as.eq_nil_or_concat with
  | inl h0 => subst h0; simpa using solid_name h
  | inr h0 =>
    obtain ⟨as', a, rfl⟩ := h0
    have hq := quote_solid (ha a (by simp)).quote
    refine ⟨n ++ as'.flatMap Attr.src ++ (a.sp ++ a.name ++ a.sp1 ++ chr '=' :: a.sp2 ++ a.quote :: a.value.flatMap Piece.src), a.quote, ?_, hq⟩
    simp [Attr.src, List.flatMap_append]

theorem front_name {n r : List Ch} (h : NameOk n) : ∃ a m, n = a :: m ∧ (n ++ r).dropWhile isWhitespace = a :: (m ++ r) ∧ a ≠ cSlash := by
  cases n with
  | nil => exact absurd rfl h.1
  | cons a m =>
    have := nameCh h a (by simp)
    exact ⟨a, m, rfl, by simp [this.ws], this.slash⟩

theorem tag_open_ev (n : List Ch) (as : List Attr) (sp : List Ch) (h : (Token.open_ n as sp).Ok) (lp : List Ch) (hlp : localNameOf n = .ok lp) :
    parseTagString (n ++ as.flatMap Attr.src ++ sp) = .ok [.startElement lp n (addAll Attrs.empty as)] := by
  obtain ⟨hn, ha, hsp⟩ := h
  have hsp' : ∀ c ∈ sp, isWhitespace c = true := fun c hc => s_ws (hsp c hc)
  obtain ⟨i, z, hl, hz1, hz2⟩ := solid_attrs hn as ha
  obtain ⟨t, ht, h1, h2⟩ := tag_whole n hn as ha (sp ++ [cSpace])
    (by intro c hc; rw [List.mem_append, List.mem_singleton] at hc; rcases hc with hc | rfl
        · exact Or.inl (hsp' c hc)
        · exact Or.inl space_ws) (by simp)
  obtain ⟨a, m, hnm, hfront, hslash⟩ := front_name (r := as.flatMap Attr.src ++ (sp ++ [cSpace])) hn
  refine pts_of (z := z) (zr := i.reverse) (a := a) (r := m ++ (as.flatMap Attr.src ++ (sp ++ [cSpace]))) (t := t) ?_ ?_ ?_ ?_
  · rw [hl]
    have : (i ++ [z] ++ sp ++ [cSpace]).reverse = (sp ++ [cSpace]).reverse ++ z :: i.reverse := by simp
    rw [this]
    refine dropWhile_skip ?_ hz1
    intro c hc
    rw [List.mem_reverse, List.mem_append, List.mem_singleton] at hc
    rcases hc with hc | rfl
    · exact hsp' c hc
    · exact space_ws
  · rw [← hfront]; simp
  · rw [if_neg hslash, ← List.cons_append, ← hnm, ← ht]; simp
  · rw [if_neg hslash, if_neg hz2]
    simp only [tagEvents, h1, h2, hlp, bind, Except.bind, pure, Except.pure]
    rfl

theorem tag_open (n : List Ch) (as : List Attr) (sp : List Ch) (h : (Token.open_ n as sp).Ok) :
    ∃ ev, parseTagString (n ++ as.flatMap Attr.src ++ sp) = .ok ev ∧ (∀ e ∈ ev, EventOk e) ∧ reported ev = got (.open_ n as sp) := by
  obtain ⟨lp, hlp, hlp2⟩ := localName_ok n
  refine ⟨[.startElement lp n (addAll Attrs.empty as)], tag_open_ev n as sp h lp hlp, ?_, ?_⟩
  · intro e he
    rw [List.mem_singleton] at he
    subst he
    exact ⟨hlp2, by rw [addAll_names, addAll_values]; simp [Attrs.empty]⟩
  · simp only [reported, List.flatMap_cons, List.flatMap_nil, List.append_nil, eventItems, got, addAll_items]

theorem tag_empty (n : List Ch) (as : List Attr) (sp : List Ch) (h : (Token.empty n as sp).Ok) :
    ∃ ev, parseTagString (n ++ as.flatMap Attr.src ++ sp ++ [cSlash]) = .ok ev ∧ (∀ e ∈ ev, EventOk e) ∧
      reported ev = got (.empty n as sp) := by
  obtain ⟨hn, ha, hsp⟩ := h
  have hsp' : ∀ c ∈ sp, isWhitespace c = true := fun c hc => s_ws (hsp c hc)
  obtain ⟨t, ht, h1, h2⟩ := tag_whole n hn as ha (sp ++ [cSlash, cSpace])
    (by intro c hc; simp only [List.mem_append, List.mem_cons, List.not_mem_nil, or_false] at hc; rcases hc with hc | rfl | rfl
        · exact Or.inl (hsp' c hc)
        · exact Or.inr (Or.inr rfl)
        · exact Or.inl space_ws) (by simp)
  obtain ⟨a, m, hnm, hfront, hslash⟩ := front_name (r := as.flatMap Attr.src ++ (sp ++ [cSlash, cSpace])) hn
  obtain ⟨lp, hlp, hlp2⟩ := localName_ok n
  refine ⟨[.startElement lp n (addAll Attrs.empty as), .endElement lp n], ?_, ?_, ?_⟩
  · refine pts_of (z := cSlash) (zr := (n ++ as.flatMap Attr.src ++ sp).reverse) (a := a)
      (r := m ++ (as.flatMap Attr.src ++ (sp ++ [cSlash, cSpace]))) (t := t) ?_ ?_ ?_ ?_
    · have : (n ++ as.flatMap Attr.src ++ sp ++ [cSlash] ++ [cSpace]).reverse =
          [cSpace] ++ cSlash :: (n ++ as.flatMap Attr.src ++ sp).reverse := by simp
      rw [this]
      refine dropWhile_skip ?_ (by decide)
      intro c hc
      rw [List.mem_singleton] at hc
      subst hc; exact space_ws
    · rw [← hfront]; simp
    · rw [if_neg hslash, ← List.cons_append, ← hnm, ← ht]; simp
    · rw [if_neg hslash, if_pos rfl]
      simp only [tagEvents, h1, h2, hlp, bind, Except.bind, pure, Except.pure]
      rfl
  · intro e he
    simp only [List.mem_cons, List.not_mem_nil, or_false] at he
    rcases he with rfl | rfl
    · exact ⟨hlp2, by rw [addAll_names, addAll_values]; simp [Attrs.empty]⟩
    · exact hlp2
  · simp only [reported, List.flatMap_cons, List.flatMap_nil, List.append_nil, eventItems, got, addAll_items]

theorem tag_close_ev (n sp : List Ch) (h : (Token.close n sp).Ok) (lp : List Ch) (hlp : localNameOf n = .ok lp) :
    parseTagString (cSlash :: n ++ sp) = .ok [.endElement lp n] := by
  obtain ⟨hn, hsp⟩ := h
  have hsp' : ∀ c ∈ sp, isWhitespace c = true := fun c hc => s_ws (hsp c hc)
  obtain ⟨t, ht, h1, h2⟩ := tag_whole n hn [] (by simp) (sp ++ [cSpace])
    (by intro c hc; rw [List.mem_append, List.mem_singleton] at hc; rcases hc with hc | rfl
        · exact Or.inl (hsp' c hc)
        · exact Or.inl space_ws) (by simp)
  obtain ⟨i, z, hl, hz1, hz2⟩ := solid_name hn
  refine pts_of (z := z) (zr := (cSlash :: i).reverse) (a := cSlash) (r := n ++ sp ++ [cSpace]) (t := t) ?_ ?_ ?_ ?_
  · have : (cSlash :: n ++ sp ++ [cSpace]).reverse = (sp ++ [cSpace]).reverse ++ z :: (cSlash :: i).reverse := by rw [hl]; simp
    rw [this]
    refine dropWhile_skip ?_ hz1
    intro c hc
    rw [List.mem_reverse, List.mem_append, List.mem_singleton] at hc
    rcases hc with hc | rfl
    · exact hsp' c hc
    · exact space_ws
  · have : isWhitespace cSlash = false := by decide
    simp [this]
  · rw [if_pos rfl, ← ht]; simp
  · rw [if_pos rfl]
    simp only [tagEvents, h1, hlp, bind, Except.bind, pure, Except.pure]
    rfl

theorem tag_close (n sp : List Ch) (h : (Token.close n sp).Ok) :
    ∃ ev, parseTagString (cSlash :: n ++ sp) = .ok ev ∧ (∀ e ∈ ev, EventOk e) ∧ reported ev = got (.close n sp) := by
  obtain ⟨lp, hlp, hlp2⟩ := localName_ok n
  refine ⟨[.endElement lp n], tag_close_ev n sp h lp hlp, ?_, ?_⟩
  · intro e he
    rw [List.mem_singleton] at he
    subst he
    exact hlp2
  · simp only [reported, List.flatMap_cons, List.flatMap_nil, List.append_nil, eventItems, got]

/-! ### text -/

theorem takeWhile_ws (l : List Ch) : ∀ c ∈ l.takeWhile isWhitespace, isWhitespace c = true :=
  fun c hc => List.all_eq_true.1 (List.all_takeWhile (p := isWhitespace) (l := l)) c hc

theorem cutBegin_ok (s : List Ch) : (cutBegin s).1 ++ (cutBegin s).2 = s ∧ ∀ c ∈ (cutBegin s).1, isWhitespace c = true := by
  refine ⟨?_, takeWhile_ws s⟩
  unfold cutBegin
  induction s with
  | nil => rfl
  | cons a s ih =>
    by_cases h : isWhitespace a = true
    · simp only [List.takeWhile_cons, h, if_true, List.length_cons, List.drop_succ_cons, List.cons_append]
      rw [ih]
    · simp [h]

theorem cutEnd_ok (s : List Ch) : s = (cutEnd s).1 ++ (cutEnd s).2 ∧ ∀ c ∈ (cutEnd s).2, isWhitespace c = true := by
  refine ⟨?_, ?_⟩
  · have h := (cutBegin_ok s.reverse).1
    simp only [cutBegin] at h
    have h1 := congrArg List.reverse h
    rw [List.reverse_append, List.reverse_reverse] at h1
    unfold cutEnd
    dsimp only
    rw [List.drop_reverse, List.reverse_reverse] at h1
    simpa using h1.symm
  · intro c hc
    unfold cutEnd at hc
    dsimp only at hc
    rw [List.mem_reverse] at hc
    exact takeWhile_ws _ c hc

theorem textEvents_spec (s : List Ch) : reported (textEvents s) = s.map .char ∧ ∀ e ∈ textEvents s, EventOk e := by
  have key : ∀ b t e : List Ch, reported ((if b.length > 0 then [Event.ignorable b] else []) ++ (if t.length > 0 then [.characters t] else []) ++
      (if e.length > 0 then [.ignorable e] else [])) = (b ++ t ++ e).map .char := by
    intro b t e
    simp only [reported, List.flatMap_append, List.map_append]
    congr 1
    · congr 1
      · split
        · simp [eventItems]
        · have : b = [] := List.length_eq_zero_iff.1 (by omega)
          subst this; rfl
      · split
        · simp [eventItems]
        · have : t = [] := List.length_eq_zero_iff.1 (by omega)
          subst this; rfl
    · split
      · simp [eventItems]
      · have : e = [] := List.length_eq_zero_iff.1 (by omega)
        subst this; rfl
  have keyE : ∀ b t e : List Ch, (∀ c ∈ b, isWhitespace c = true) → (∀ c ∈ e, isWhitespace c = true) →
      ∀ x ∈ ((if b.length > 0 then [Event.ignorable b] else []) ++ (if t.length > 0 then [.characters t] else []) ++
      (if e.length > 0 then [.ignorable e] else [])), EventOk x := by
    intro b t e hb he x hx
    simp only [List.mem_append] at hx
    rcases hx with (hx | hx) | hx
    · split at hx
      · rw [List.mem_singleton] at hx; subst hx
        exact ⟨by rintro rfl; simp at *, hb⟩
      · simp at hx
    · split at hx
      · rw [List.mem_singleton] at hx; subst hx
        show t ≠ []
        rintro rfl; simp at *
      · simp at hx
    · split at hx
      · rw [List.mem_singleton] at hx; subst hx
        exact ⟨by rintro rfl; simp at *, he⟩
      · simp at hx
  unfold textEvents
  split
  · rename_i hlen
    obtain ⟨b1, b2⟩ := cutBegin_ok s
    obtain ⟨e1, e2⟩ := cutEnd_ok (cutBegin s).2
    revert b1 b2 e1 e2
    generalize (cutBegin s).1 = b
    generalize (cutEnd (cutBegin s).2).1 = m
    generalize (cutEnd (cutBegin s).2).2 = e
    intro hs hb hT he
    rw [hT] at hs
    have hs' : s = b ++ (m ++ e) := hs.symm
    unfold deliverText
    dsimp only
    have hb' : (if b.length > 0 then b.dropLast else b) ++ (if b.length > 0 then b.getLast?.toList ++ m else m) = b ++ m := by
      split
      · cases hbn : b.getLast? with
        | none => simp at hbn; subst hbn; simp at *
        | some x =>
          obtain ⟨b0, rfl⟩ := List.getLast?_eq_some_iff.1 hbn
          simp
      · rfl
    have he' : (if e.length > 0 then e.head?.toList else []) ++ (if e.length > 0 then e.tail else e) = e := by
      cases e <;> simp
    refine ⟨?_, ?_⟩
    · rw [key]
      congr 1
      rw [hs']
      have h5 : ∀ x : List Ch, (if e.length > 0 then x ++ e.head?.toList else x) = x ++ (if e.length > 0 then e.head?.toList else []) := by
        intro x; split <;> simp
      rw [h5, ← List.append_assoc, hb', List.append_assoc, he', List.append_assoc]
    · refine keyE _ _ _ ?_ ?_
      · intro c hc
        split at hc
        · exact hb c (List.dropLast_subset _ hc)
        · exact hb c hc
      · intro c hc
        split at hc
        · exact he c (List.mem_of_mem_tail hc)
        · exact he c hc
  · rename_i hlen
    have : s = [] := List.length_eq_zero_iff.1 (by omega)
    subst this
    exact ⟨rfl, by simp⟩

theorem takeWhile_none {l : List Ch} (h : ∀ c, l.head? = some c → isWhitespace c = false) : l.takeWhile isWhitespace = [] := by
  cases l with
  | nil => rfl
  | cons a l => simp [h a rfl]

theorem textEvents_solid (s : List Ch) (h0 : s ≠ []) (h1 : ∀ c, s.head? = some c → isWhitespace c = false)
    (h2 : ∀ c, s.getLast? = some c → isWhitespace c = false) : textEvents s = [.characters s] := by
  have hb : cutBegin s = ([], s) := by unfold cutBegin; rw [takeWhile_none h1]; rfl
  have he : cutEnd s = (s, []) := by
    unfold cutEnd
    rw [takeWhile_none (by rw [List.head?_reverse]; exact h2)]
    simp
  have hl : s.length > 0 := by cases s with
    | nil => exact absurd rfl h0
    | cons => simp
  unfold textEvents
  rw [if_pos hl, hb]
  dsimp only
  rw [he]
  unfold deliverText
  simp only [List.length_nil, gt_iff_lt, Nat.lt_irrefl, if_false, if_pos hl]
  rfl

/-! ### parse -/

theorem p_plain (l : List Ch) (hl : ∀ c ∈ l, c ≠ cGt ∧ c ≠ cQuot ∧ c ≠ cApos) : ∀ (p : P) (r : List Ch), p.inTag = true → p.inValue = false →
    parseLoop p (l ++ r) = parseLoop { p with token := p.token ++ l } r := by
  induction l with
  | nil => intro p r _ _; simp
  | cons c l ih =>
    intro p r h1 h2
    obtain ⟨a1, a2, a3⟩ := hl c (by simp)
    rw [List.cons_append, parseLoop, if_neg (by simp [h1]), if_neg (by simp [h1]), if_neg (by simp [a1]), if_neg (by simp [a2, a3]),
      ih (fun x hx => hl x (by simp [hx])) _ _ (by exact h1) (by exact h2)]
    simp

theorem p_value (q : Ch) (l : List Ch) (hl : ∀ c ∈ l, c ≠ q) : ∀ (p : P) (r : List Ch), p.inTag = true → p.inValue = true → p.opener = q →
    parseLoop p (l ++ r) = parseLoop { p with token := p.token ++ l } r := by
  induction l with
  | nil => intro p r _ _ _; simp
  | cons c l ih =>
    intro p r h1 h2 h3
    have hc := hl c (by simp)
    have ih' := ih (fun x hx => hl x (by simp [hx]))
    rw [List.cons_append, parseLoop, if_neg (by simp [h1]), if_neg (by simp [h1]), if_neg (by simp [h2])]
    by_cases hq : c = cQuot ∨ c = cApos
    · rw [if_pos ⟨hq, h1⟩]
      have : p.quote c = { p with token := p.token ++ [c] } := by
        unfold P.quote
        rw [if_neg (by simp [h2]), if_neg (by rw [h3]; exact fun e => hc e.symm)]
      rw [this, ih' _ _ (by exact h1) (by exact h2) (by exact h3)]
      simp
    · rw [if_neg (by simp [hq]), ih' _ _ (by exact h1) (by exact h2) (by exact h3)]
      simp

theorem value_chars {a : Attr} (ha : a.Ok) : ∀ c ∈ a.value.flatMap Piece.src, c ≠ a.quote := by
  intro c hc
  rw [List.mem_flatMap] at hc
  obtain ⟨x, hx, hc⟩ := hc
  cases x with
  | lit d =>
    simp only [Piece.src, List.mem_singleton] at hc
    subst hc
    exact (ha.value c hx).2.2
  | ref e =>
    have hq : cQuot ∉ Piece.src (.ref e) ∧ cApos ∉ Piece.src (.ref e) := by cases e <;> decide +kernel
    rcases ha.quote with h | h <;> rw [h]
    · rintro rfl; exact hq.1 hc
    · rintro rfl; exact hq.2 hc

theorem p_attr (a : Attr) (ha : a.Ok) (p : P) (r : List Ch) (h1 : p.inTag = true) (h2 : p.inValue = false) :
    ∃ q, parseLoop p (a.src ++ r) = parseLoop q r ∧ q.inTag = true ∧ q.inValue = false ∧ q.token = p.token ++ a.src ∧ q.events = p.events := by
  have hval := value_chars ha
  obtain ⟨hsp, hname, hsp1, hsp2, hq, _⟩ := ha
  obtain ⟨pre, hpre⟩ : ∃ pre, pre = a.sp ++ a.name ++ a.sp1 ++ chr '=' :: a.sp2 := ⟨_, rfl⟩
  have hsrc : a.src = pre ++ (a.quote :: (a.value.flatMap Piece.src ++ [a.quote])) := by rw [hpre]; simp [Attr.src]
  have hS : ∀ s : List Ch, (∀ c ∈ s, IsS c) → ∀ c ∈ s, c ≠ cGt ∧ c ≠ cQuot ∧ c ≠ cApos := by
    intro s h c hc
    have := ws_ne (s_ws (h c hc))
    exact ⟨this.2.1, this.2.2.2.2.2.1, this.2.2.2.2.2.2⟩
  have hplain : ∀ c ∈ pre, c ≠ cGt ∧ c ≠ cQuot ∧ c ≠ cApos := by
    intro c hc
    rw [hpre] at hc
    simp only [List.mem_append, List.mem_cons] at hc
    rcases hc with ((hc | hc) | hc) | rfl | hc
    · exact hS _ hsp.2 c hc
    · have := nameCh hname c hc; exact ⟨this.gt, this.quot, this.apos⟩
    · exact hS _ hsp1 c hc
    · decide
    · exact hS _ hsp2 c hc
  have hq' : a.quote = cQuot ∨ a.quote = cApos := hq
  have hgt : a.quote ≠ cGt := by rcases hq' with h | h <;> rw [h] <;> decide
  rw [hsrc, List.append_assoc, p_plain pre hplain p _ h1 h2, List.cons_append]
  rw [parseLoop, if_neg (by simp [h1]), if_neg (by simp [h1]), if_neg (by simp [hgt]), if_pos ⟨hq', by exact h1⟩]
  obtain ⟨w, hw⟩ : ∃ w, w = P.quote { p with token := p.token ++ pre } a.quote := ⟨_, rfl⟩
  have hw' : w = { p with token := p.token ++ pre ++ [a.quote], inValue := true, opener := a.quote } := by
    rw [hw]; unfold P.quote; rw [if_pos (by exact h2)]
  rw [← hw, List.append_assoc, p_value a.quote _ hval w _ (by rw [hw']; exact h1) (by rw [hw']) (by rw [hw']),
    List.cons_append, List.nil_append]
  rw [parseLoop, if_neg (by rw [hw']; simp [h1]), if_neg (by rw [hw']; simp [h1]), if_neg (by simp [hgt]),
    if_pos ⟨hq', by rw [hw']; exact h1⟩]
  refine ⟨_, rfl, ?_⟩
  have : P.quote { w with token := w.token ++ a.value.flatMap Piece.src } a.quote =
      { p with token := p.token ++ pre ++ [a.quote] ++ a.value.flatMap Piece.src ++ [a.quote], inValue := false, opener := a.quote } := by
    rw [hw']
    unfold P.quote
    rw [if_neg (by simp), if_pos rfl]
  rw [this]
  exact ⟨h1, rfl, by simp, rfl⟩

theorem p_attrs (as : List Attr) (ha : ∀ a ∈ as, a.Ok) : ∀ (p : P) (r : List Ch), p.inTag = true → p.inValue = false →
    ∃ q, parseLoop p (as.flatMap Attr.src ++ r) = parseLoop q r ∧ q.inTag = true ∧ q.inValue = false ∧
      q.token = p.token ++ as.flatMap Attr.src ∧ q.events = p.events := by
  induction as with
  | nil => intro p r h1 h2; exact ⟨p, by simp, h1, h2, by simp, rfl⟩
  | cons a as ih =>
    intro p r h1 h2
    obtain ⟨q, e1, q1, q2, q3, q4⟩ := p_attr a (ha a (by simp)) p (as.flatMap Attr.src ++ r) h1 h2
    obtain ⟨s, e2, s1, s2, s3, s4⟩ := ih (fun x hx => ha x (by simp [hx])) q r q1 q2
    exact ⟨s, by rw [List.flatMap_cons, List.append_assoc, e1, e2], s1, s2, by rw [s3, q3]; simp, by rw [s4, q4]⟩

/-- between tags -/
structure Outside (p : P) : Prop where
  inTag : p.inTag = false
  inValue : p.inValue = false

/-- From `<` to `>`: the tag string is `n`, the attributes, and `tl`. -/
theorem p_tag (n : List Ch) (hn : ∀ c ∈ n, c ≠ cGt ∧ c ≠ cQuot ∧ c ≠ cApos) (as : List Attr) (ha : ∀ a ∈ as, a.Ok) (tl : List Ch)
    (htl : ∀ c ∈ tl, c ≠ cGt ∧ c ≠ cQuot ∧ c ≠ cApos) (ev : List Event)
    (hev : parseTagString (n ++ as.flatMap Attr.src ++ tl) = .ok ev) (p : P) (r : List Ch) (hp : Outside p) :
    ∃ q, parseLoop p (cLt :: (n ++ as.flatMap Attr.src ++ tl ++ cGt :: r)) = parseLoop q r ∧ Outside q ∧ q.token = [] ∧
      q.events = p.events ++ textEvents p.token ++ ev := by
  rw [parseLoop, if_pos ⟨rfl, hp.inTag, hp.inValue⟩]
  simp only [List.append_assoc]
  rw [p_plain n hn { p with inTag := true, events := p.events ++ textEvents p.token, token := [] } _ rfl hp.inValue]
  obtain ⟨q, e1, q1, q2, q3, q4⟩ := p_attrs as ha { p with inTag := true, events := p.events ++ textEvents p.token, token := [] ++ n }
    (tl ++ cGt :: r) rfl hp.inValue
  rw [e1, p_plain tl htl q _ q1 q2]
  rw [parseLoop, if_neg (by simp [q1]), if_neg (by simp [q1]), if_pos ⟨rfl, q1, q2⟩]
  have : parseTagString (q.token ++ tl) = .ok ev := by rw [q3]; simpa using hev
  rw [this]
  refine ⟨_, rfl, ⟨rfl, q2⟩, rfl, ?_⟩
  show q.events ++ ev = _
  rw [q4]
  simp

theorem p_text (d : List Piece) (hd : ∀ c, Piece.lit c ∈ d → c ≠ cLt ∧ c ≠ cAmp) : ∀ (p : P) (r : List Ch), Outside p →
    parseLoop p (d.flatMap Piece.src ++ r) = parseLoop { p with token := p.token ++ d.flatMap delivered } r := by
  induction d with
  | nil => intro p r _; simp
  | cons x d ih =>
    intro p r hp
    have ih' := ih (fun c hc => hd c (by simp [hc]))
    rw [List.flatMap_cons, List.append_assoc, List.flatMap_cons]
    cases x with
    | lit c =>
      obtain ⟨a1, a2⟩ := hd c (by simp)
      simp only [Piece.src, delivered, List.cons_append, List.nil_append]
      rw [parseLoop, if_neg (by simp [a1]), if_neg (by simp [a2]), if_neg (by simp [hp.inTag]), if_neg (by simp [hp.inTag]),
        ih' { p with token := p.token ++ [c] } _ ⟨hp.inTag, hp.inValue⟩]
      simp
    | ref e =>
      simp only [Piece.src]
      have : chr '&' :: e.name ++ [chr ';'] ++ (d.flatMap Piece.src ++ r) = cAmp :: (e.name ++ cSemi :: (d.flatMap Piece.src ++ r)) := by
        simp [k_amp, k_semi]
      rw [this, parseLoop, if_neg (fun h => absurd h.1 (by decide)), if_pos ⟨rfl, hp.inTag⟩]
      have hr := readEscape_ok e.name (d.flatMap Piece.src ++ r) (entity_semi e)
      split
      · rename_i e1 r1 h3
        rw [hr] at h3
        cases h3
        rw [textEntity_ok, ih' { p with token := p.token ++ delivered (.ref e) } _ ⟨hp.inTag, hp.inValue⟩]
        simp
      · rename_i h3; rw [hr] at h3; cases h3

theorem reported_append (a b : List Event) : reported (a ++ b) = reported a ++ reported b := by simp [reported]

theorem name_plain {n : List Ch} (h : NameOk n) : ∀ c ∈ n, c ≠ cGt ∧ c ≠ cQuot ∧ c ≠ cApos :=
  fun c hc => ⟨(nameCh h c hc).gt, (nameCh h c hc).quot, (nameCh h c hc).apos⟩

theorem sp_plain {s : List Ch} (h : ∀ c ∈ s, IsS c) : ∀ c ∈ s, c ≠ cGt ∧ c ≠ cQuot ∧ c ≠ cApos := by
  intro c hc
  have := ws_ne (s_ws (h c hc))
  exact ⟨this.2.1, this.2.2.2.2.2.1, this.2.2.2.2.2.2⟩

/-- one token -/
theorem p_token (t : Token) (ht : t.Ok) (p : P) (r : List Ch) (hp : Outside p) (he : ∀ e ∈ p.events, EventOk e) :
    ∃ q, parseLoop p (t.src ++ r) = parseLoop q r ∧ Outside q ∧ (∀ e ∈ q.events, EventOk e) ∧ (t.isTag = true → q.token = []) ∧
      p.events <+: q.events ∧ reported q.events ++ q.token.map .char = reported p.events ++ p.token.map .char ++ got t := by
  have fin : ∀ (q : P) (ev : List Event) (T : List Item), q.token = [] → q.events = p.events ++ textEvents p.token ++ ev →
      (∀ e ∈ ev, EventOk e) → reported ev = T →
      (∀ e ∈ q.events, EventOk e) ∧ p.events <+: q.events ∧
        reported q.events ++ q.token.map .char = reported p.events ++ p.token.map .char ++ T := by
    intro q ev T h1 h2 h3 h4
    obtain ⟨t1, t2⟩ := textEvents_spec p.token
    refine ⟨?_, ⟨textEvents p.token ++ ev, by rw [h2, List.append_assoc]⟩, ?_⟩
    · rw [h2]
      intro e hm
      simp only [List.mem_append] at hm
      rcases hm with (hm | hm) | hm
      · exact he e hm
      · exact t2 e hm
      · exact h3 e hm
    · rw [h1, h2, reported_append, reported_append, t1, h4]; simp
  cases t with
  | open_ n as sp =>
    obtain ⟨ev, h1, h2, h3⟩ := tag_open n as sp ht
    obtain ⟨q, e1, q1, q2, q3⟩ := p_tag n (name_plain ht.1) as ht.2.1 sp (sp_plain ht.2.2) ev h1 p r hp
    obtain ⟨f1, f2⟩ := fin q ev _ q2 q3 h2 h3
    refine ⟨q, ?_, q1, f1, fun _ => q2, f2⟩
    rw [← e1]; simp [Token.src, k_lt, k_gt]
  | empty n as sp =>
    obtain ⟨ev, h1, h2, h3⟩ := tag_empty n as sp ht
    obtain ⟨q, e1, q1, q2, q3⟩ := p_tag n (name_plain ht.1) as ht.2.1 (sp ++ [cSlash])
      (by intro c hc; rw [List.mem_append, List.mem_singleton] at hc
          rcases hc with hc | rfl
          · exact sp_plain ht.2.2 c hc
          · decide) ev (by simpa using h1) p r hp
    obtain ⟨f1, f2⟩ := fin q ev _ q2 q3 h2 h3
    refine ⟨q, ?_, q1, f1, fun _ => q2, f2⟩
    rw [← e1]; simp [Token.src, k_lt, k_gt, k_slash]
  | close n sp =>
    obtain ⟨ev, h1, h2, h3⟩ := tag_close n sp ht
    obtain ⟨q, e1, q1, q2, q3⟩ := p_tag (cSlash :: n)
      (by intro c hc; rw [List.mem_cons] at hc
          rcases hc with rfl | hc
          · decide
          · exact name_plain ht.1 c hc) [] (by simp) sp (sp_plain ht.2) ev (by simpa using h1) p r hp
    obtain ⟨f1, f2⟩ := fin q ev _ q2 q3 h2 h3
    refine ⟨q, ?_, q1, f1, fun _ => q2, f2⟩
    rw [← e1]; simp [Token.src, k_lt, k_gt, k_slash]
  | text d =>
    refine ⟨{ p with token := p.token ++ d.flatMap delivered }, p_text d ht p r hp, ⟨hp.inTag, hp.inValue⟩, he, by simp [Token.isTag], List.prefix_refl _, ?_⟩
    simp [got]

theorem p_tokens (ts : List Token) (hts : ∀ t ∈ ts, t.Ok) : ∀ (p : P) (r : List Ch), Outside p → (∀ e ∈ p.events, EventOk e) →
    ∃ q, parseLoop p (src ts ++ r) = parseLoop q r ∧ Outside q ∧ (∀ e ∈ q.events, EventOk e) ∧
      p.events <+: q.events ∧ reported q.events ++ q.token.map .char = reported p.events ++ p.token.map .char ++ ts.flatMap got := by
  induction ts with
  | nil => intro p r hp he; exact ⟨p, by simp [src], hp, he, List.prefix_refl _, by simp⟩
  | cons t ts ih =>
    intro p r hp he
    obtain ⟨q, e1, q1, q2, _, q4, q3⟩ := p_token t (hts t (by simp)) p (src ts ++ r) hp he
    obtain ⟨s, e2, s1, s2, s4, s3⟩ := ih (fun x hx => hts x (by simp [hx])) q r q1 q2
    refine ⟨s, ?_, s1, s2, q4.trans s4, ?_⟩
    · rw [← e2, ← e1]; simp [src]
    · rw [s3, q3]; simp

/-- a whole document ending with a tag -/
theorem parse_tokens (ts : List Token) (last : Token) (h : ∀ t ∈ ts ++ [last], t.Ok) (hl : last.isTag = true) :
    ∃ ev, parse (src (ts ++ [last])) = .ok ev ∧ (∀ e ∈ ev, EventOk e) ∧ reported ev = (ts ++ [last]).flatMap got ∧
      ev.head? = some .startDocument ∧ ev.getLast? = some .endDocument := by
  have h0 : Outside ⟨false, false, cQuot, [], [.startDocument]⟩ := ⟨rfl, rfl⟩
  obtain ⟨q, e1, q1, q2, q4, q3⟩ := p_tokens ts (fun t ht => h t (by simp [ht])) ⟨false, false, cQuot, [], [.startDocument]⟩ (last.src ++ []) h0
    (by intro e he; rw [List.mem_singleton] at he; subst he; trivial)
  obtain ⟨s, e2, s1, s2, s3, s5, s4⟩ := p_token last (h last (by simp)) q [] q1 q2
  have e : parseLoop ⟨false, false, cQuot, [], [.startDocument]⟩ (src (ts ++ [last])) = .ok s := by
    have : src (ts ++ [last]) = src ts ++ (last.src ++ []) := by simp [src]
    rw [this, e1, e2, parseLoop]
  refine ⟨s.events ++ [.endDocument], ?_, ?_, ?_, ?_, by simp⟩
  · simp only [parse, bind, Except.bind, pure, Except.pure, e]
  · intro x hx
    rw [List.mem_append, List.mem_singleton] at hx
    rcases hx with hx | rfl
    · exact s2 x hx
    · trivial
  · rw [s3 hl] at s4
    rw [reported_append]
    have : reported [Event.endDocument] = [] := rfl
    rw [this, List.append_nil]
    simp only [List.map_nil, List.append_nil] at s4
    rw [s4, q3]
    simp [reported, eventItems]
  · obtain ⟨x, hx⟩ := q4.trans s5
    rw [← hx]; rfl

end Verif.Xml.ParserProofs
