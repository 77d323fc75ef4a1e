import Verif.Xml.Props
/-
C39: the parser reads back what the writer wrote (apostrophes excepted).
-/
namespace Verif.Xml
open Verif Verif.Str Verif.Xml.Spec Verif.Xml.ParserProofs Verif.Xml.WriterProofs

/-! ### documents in general -/

/-- no reference to the entity `apos` in the token -/
def NoAposRef : Token → Prop
  | .open_ _ as _ => ∀ a ∈ as, Piece.ref .apos ∉ a.value
  | .empty _ as _ => ∀ a ∈ as, Piece.ref .apos ∉ a.value
  | .close _ _ => True
  | .text d => Piece.ref .apos ∉ d

theorem delivered_chars (d : List Piece) (h : Piece.ref .apos ∉ d) : d.flatMap delivered = d.map Piece.char := by
  induction d with
  | nil => rfl
  | cons x d ih =>
    rw [List.flatMap_cons, ih (fun hm => h (List.mem_cons_of_mem _ hm)), List.map_cons]
    cases x with
    | lit c => rfl
    | ref e => cases e <;> first | rfl | exact absurd (List.mem_cons_self ..) h

theorem got_items (t : Token) (h : NoAposRef t) : got t = t.items := by
  cases t with
  | open_ n as sp =>
    simp only [got, Token.items, List.cons.injEq, true_and]
    exact List.map_congr_left (fun a ha => by simp only [Attr.items]; rw [delivered_chars _ (h a ha)])
  | empty n as sp =>
    simp only [got, Token.items]
    rw [List.map_congr_left (g := Attr.items) (fun a ha => by simp only [Attr.items]; rw [delivered_chars _ (h a ha)])]
  | close n sp => rfl
  | text d => simp only [got, Token.items]; rw [delivered_chars _ h]; simp [Function.comp_def]

/-- **C39** (partial: without references to `apos`)  Every document of the specified fragment of XML (any nesting of tags,
matched or not, with attributes in either quotation mark and white space as XML allows it, literal text and entity
references) that ends with a tag is reported as what it says; every event has the right local name. -/
theorem parse_document_partial (ts : List Token) (last : Token) (h : ∀ t ∈ ts ++ [last], t.Ok) (hl : last.isTag = true)
    (ha : ∀ t ∈ ts ++ [last], NoAposRef t) :
    ∃ ev, parse (src (ts ++ [last])) = .ok ev ∧ (∀ e ∈ ev, EventOk e) ∧ reported ev = items (ts ++ [last]) ∧
      ev.head? = some .startDocument ∧ ev.getLast? = some .endDocument := by
  obtain ⟨ev, h1, h2, h3, h4, h5⟩ := parse_tokens ts last h hl
  refine ⟨ev, h1, h2, ?_, h4, h5⟩
  rw [h3, items]
  have : ∀ l : List Token, (∀ t ∈ l, NoAposRef t) → l.flatMap got = l.flatMap Token.items := by
    intro l hl
    induction l with
    | nil => rfl
    | cons t l ih =>
      rw [List.flatMap_cons, List.flatMap_cons, got_items t (hl t (by simp)), ih (fun x hx => hl x (by simp [hx]))]
  exact this _ ha

/-- `<a:b k='x"y' >1 &lt; 2</a:b>` -/
example : ∃ ts last, (∀ t ∈ ts ++ [last], Token.Ok t) ∧ last.isTag = true ∧ (∀ t ∈ ts ++ [last], NoAposRef t) ∧ items (ts ++ [last]) ≠ [] ∧
    ts = [.open_ [0x61, 0x3A, 0x62] [⟨[0x20], [0x6B], [], [], 0x27, [.lit 0x78, .lit 0x22, .lit 0x79]⟩] [0x20],
      .text [.lit 0x31, .lit 0x20, .ref .lt, .lit 0x20, .lit 0x32]] := by
  refine ⟨_, .close [0x61, 0x3A, 0x62] [], ?_, rfl, ?_, ?_, rfl⟩
  · have n1 : NameOk [0x61, 0x3A, 0x62] := name_ok _ (by decide) (by decide)
    have n2 : NameOk [0x6B] := name_ok _ (by decide) (by decide)
    have s : IsS 0x20 := Or.inl rfl
    simp only [List.cons_append, List.nil_append, List.forall_mem_cons, List.not_mem_nil, false_imp_iff, implies_true, and_true]
    refine ⟨⟨n1, ?_, by simpa using s⟩, ?_, ⟨n1, by simp⟩⟩
    · simp only [List.mem_singleton, forall_eq]
      refine ⟨⟨by simp, by simpa using s⟩, n2, by simp, by simp, Or.inr rfl, ?_⟩
      intro c hc
      simp only [List.mem_cons, Piece.lit.injEq, List.not_mem_nil, or_false] at hc
      rcases hc with rfl | rfl | rfl <;> decide
    · intro c hc
      simp only [List.mem_cons, Piece.lit.injEq, List.not_mem_nil, or_false, reduceCtorEq, false_or] at hc
      rcases hc with rfl | rfl | rfl | rfl <;> decide
  · simp [NoAposRef]
  · simp [items, Token.items]

/-! ### what was written -/

theorem withoutApos_append (a b : List Item) : withoutApos (a ++ b) = withoutApos a ++ withoutApos b := by
  induction a with
  | nil => rfl
  | cons x a ih =>
    cases x with
    | char c =>
      simp only [List.cons_append, withoutApos]
      split
      · exact ih
      · rw [ih, List.cons_append]
    | start n => simp [withoutApos, ih]
    | attr n v => simp [withoutApos, ih]
    | stop n => simp [withoutApos, ih]

theorem withoutApos_chars (l : List Ch) : withoutApos (l.map .char) = (l.filter (fun c => decide (c ≠ chr '\''))).map .char := by
  induction l with
  | nil => rfl
  | cons c l ih =>
    simp only [List.map_cons, withoutApos]
    by_cases h : c = chr '\''
    · rw [if_pos h, ih, List.filter_cons_of_neg (by simp [h])]
    · rw [if_neg h, ih, List.filter_cons_of_pos (by simp [h]), List.map_cons]

theorem delivered_filter (d : List Piece) (h : NoLit d) :
    d.flatMap delivered = (d.map Piece.char).filter (fun c => decide (c ≠ chr '\'')) := by
  induction d with
  | nil => rfl
  | cons x d ih =>
    rw [List.flatMap_cons, ih (fun c hc => h c (List.mem_cons_of_mem _ hc)), List.map_cons]
    cases x with
    | lit c =>
      have hc : c ≠ chr '\'' := h c (List.mem_cons_self ..)
      rw [List.filter_cons_of_pos (by simp [Piece.char, hc])]; rfl
    | ref e =>
      cases e with
      | apos => rw [List.filter_cons_of_neg (by decide)]; rfl
      | lt => rw [List.filter_cons_of_pos (by decide)]; rfl
      | gt => rw [List.filter_cons_of_pos (by decide)]; rfl
      | amp => rw [List.filter_cons_of_pos (by decide)]; rfl
      | quot => rw [List.filter_cons_of_pos (by decide)]; rfl

theorem withoutApos_attrs (as : List Attr) (h : ∀ a ∈ as, AttrNoLit a) :
    withoutApos (as.map Attr.items) = as.map (fun a => .attr a.name (a.value.flatMap delivered)) := by
  induction as with
  | nil => rfl
  | cons a as ih =>
    simp only [List.map_cons, Attr.items, withoutApos]
    rw [← delivered_filter _ (h a (by simp)), ← ih (fun x hx => h x (by simp [hx]))]

theorem got_withoutApos (t : Token) (h : TokNoLit t) : got t = withoutApos t.items := by
  cases t with
  | open_ n as sp => simp only [got, Token.items, withoutApos]; rw [withoutApos_attrs as h]
  | empty n as sp =>
    simp only [got, Token.items, List.cons_append, withoutApos]
    rw [withoutApos_append, withoutApos_attrs as h]; rfl
  | close n sp => rfl
  | text d =>
    simp only [got, Token.items]
    rw [delivered_filter d h]
    have : d.map (fun p => Item.char p.char) = (d.map Piece.char).map .char := by simp [Function.comp_def]
    rw [this, withoutApos_chars]

theorem gots_withoutApos (ts : List Token) (h : ∀ t ∈ ts, TokNoLit t) : ts.flatMap got = withoutApos (items ts) := by
  induction ts with
  | nil => rfl
  | cons t ts ih =>
    have : items (t :: ts) = t.items ++ items ts := rfl
    rw [List.flatMap_cons, ih (fun x hx => h x (by simp [hx])), got_withoutApos t (h t (by simp)), this, withoutApos_append]

theorem s_apos {c : Ch} (h : IsS c) : c ≠ chr '\'' := by
  rcases h with rfl | rfl | rfl | rfl <;> decide

theorem withoutApos_indented {a b : List Item} (h : Indented a b) : Indented (withoutApos a) (withoutApos b) := by
  have ws : ∀ l : List Ch, (∀ c ∈ l, IsS c) → withoutApos (l.map .char) = l.map .char := by
    intro l hl
    rw [withoutApos_chars, List.filter_eq_self.2]
    intro c hc
    simp [s_apos (hl c hc)]
  induction h with
  | nil => exact .nil
  | same x _ ih =>
    cases x with
    | char c =>
      simp only [withoutApos]
      split
      · exact ih
      · exact .same _ ih
    | start n => exact .same _ ih
    | attr n v => exact .same _ ih
    | stop n => exact .same _ ih
  | start l n hw _ ih => rw [withoutApos_append, ws l hw]; exact .start l n hw ih
  | stop l n hw _ ih => rw [withoutApos_append, ws l hw]; exact .stop l n hw ih

/-! the XML declaration is reported as an element -/

def declAttrs : List Attr := [⟨[cSpace], lit "version", [], [], cQuot, (lit "1.0").map .lit⟩, ⟨[cSpace], lit "encoding", [], [], cQuot, (lit "UTF-8").map .lit⟩]

theorem declAttrs_ok : ∀ a ∈ declAttrs, a.Ok := by
  have n1 : NameOk (lit "version") := name_ok _ (by decide +kernel) (by decide +kernel)
  have n2 : NameOk (lit "encoding") := name_ok _ (by decide +kernel) (by decide +kernel)
  have sp : ([cSpace] : List Ch) ≠ [] ∧ ∀ c ∈ [cSpace], IsS c := ⟨by simp, by intro c hc; rw [List.mem_singleton] at hc; exact Or.inl hc⟩
  have v : ∀ l : List Ch, l.all (fun c => decide (c ≠ chr '<' ∧ c ≠ chr '&' ∧ c ≠ cQuot)) = true →
      ∀ c, Piece.lit c ∈ l.map Piece.lit → c ≠ chr '<' ∧ c ≠ chr '&' ∧ c ≠ cQuot := by
    intro l hl c hc
    simp only [List.mem_map, Piece.lit.injEq, exists_eq_right] at hc
    have := List.all_eq_true.1 hl c hc
    simpa using this
  intro a ha
  simp only [declAttrs, List.mem_cons, List.not_mem_nil, or_false] at ha
  rcases ha with h | h
  · rw [h]; exact ⟨sp, n1, by simp, by simp, Or.inl rfl, v _ (by decide +kernel)⟩
  · rw [h]; exact ⟨sp, n2, by simp, by simp, Or.inl rfl, v _ (by decide +kernel)⟩

def declEvent : Event := .startElement (lit "?xml") (lit "?xml") ⟨[lit "version", lit "encoding"], [lit "1.0", lit "UTF-8"]⟩

theorem decl_tag : parseTagString (lit "?xml" ++ declAttrs.flatMap Attr.src ++ lit "?") = .ok [declEvent] := by
  decide +kernel

theorem prolog_src : prolog = cLt :: (lit "?xml" ++ declAttrs.flatMap Attr.src ++ lit "?" ++ cGt :: [cNl]) := by
  decide +kernel

/-- reading the XML declaration and the line feed behind it -/
theorem p_prolog (r : List Ch) : ∃ q, parseLoop ⟨false, false, cQuot, [], [.startDocument]⟩ (prolog ++ r) = parseLoop q r ∧ Outside q ∧
    q.token = [cNl] ∧ q.events = [.startDocument, declEvent] := by
  have pl : ∀ l : List Ch, l.all (fun c => decide (c ≠ cGt ∧ c ≠ cQuot ∧ c ≠ cApos)) = true → ∀ c ∈ l, c ≠ cGt ∧ c ≠ cQuot ∧ c ≠ cApos := by
    intro l hl c hc
    have := List.all_eq_true.1 hl c hc
    simpa using this
  obtain ⟨q, e, q1, q2, q3⟩ := p_tag (lit "?xml") (pl _ (by decide +kernel)) declAttrs declAttrs_ok (lit "?") (pl _ (by decide +kernel)) [declEvent]
    decl_tag ⟨false, false, cQuot, [], [.startDocument]⟩ (cNl :: r) ⟨rfl, rfl⟩
  refine ⟨{ q with token := [cNl] }, ?_, ⟨q1.1, q1.2⟩, rfl, ?_⟩
  · have : prolog ++ r = cLt :: (lit "?xml" ++ declAttrs.flatMap Attr.src ++ lit "?" ++ cGt :: cNl :: r) := by
      rw [prolog_src]; simp
    rw [this, e, parseLoop, if_neg (fun h => absurd h.1 (by decide)), if_neg (fun h => absurd h.1 (by decide)),
      if_neg (fun h => absurd h.1 (by decide)), if_neg (fun h => absurd h.1 (by decide)), q2]
    rfl
  · show q.events = _
    rw [q3]; rfl

/-- what the parser reports for the XML declaration of the writer -/
def declItems : List Item :=
  [.start (lit "?xml"), .attr (lit "version") (lit "1.0"), .attr (lit "encoding") (lit "UTF-8"), .char cNl]

/-- the declaration and a document ending with a tag -/
theorem parse_written (ts : List Token) (last : Token) (h : ∀ t ∈ ts ++ [last], t.Ok) (hl : last.isTag = true) :
    ∃ ev, parse (prolog ++ src (ts ++ [last])) = .ok ev ∧ (∀ e ∈ ev, EventOk e) ∧ reported ev = declItems ++ (ts ++ [last]).flatMap got ∧
      ev.head? = some .startDocument ∧ ev.getLast? = some .endDocument := by
  obtain ⟨p, e0, p0, p1, p2⟩ := p_prolog (src ts ++ (last.src ++ []))
  have hloc : IsLocalPart (lit "?xml") (lit "?xml") := ⟨by decide +kernel, Or.inl rfl⟩
  obtain ⟨q, e1, q1, q2, q4, q3⟩ := p_tokens ts (fun t ht => h t (by simp [ht])) p (last.src ++ []) p0
    (by rw [p2]; intro e he
        simp only [List.mem_cons, List.not_mem_nil, or_false] at he
        rcases he with he | he
        · rw [he]; trivial
        · rw [he]; exact ⟨hloc, rfl⟩)
  obtain ⟨s, e2, s1, s2, s3, s5, s4⟩ := p_token last (h last (by simp)) q [] q1 q2
  have e : parseLoop ⟨false, false, cQuot, [], [.startDocument]⟩ (prolog ++ src (ts ++ [last])) = .ok s := by
    have : src (ts ++ [last]) = src ts ++ (last.src ++ []) := by simp [src]
    rw [this, e0, e1, e2, parseLoop]
  refine ⟨s.events ++ [.endDocument], ?_, ?_, ?_, ?_, by simp⟩
  · simp only [parse, bind, Except.bind, pure, Except.pure, e]
  · intro x hx
    rw [List.mem_append, List.mem_singleton] at hx
    rcases hx with hx | rfl
    · exact s2 x hx
    · trivial
  · rw [s3 hl] at s4
    rw [reported_append]
    have : reported [Event.endDocument] = [] := rfl
    rw [this, List.append_nil]
    simp only [List.map_nil, List.append_nil] at s4
    rw [s4, q3, p2, p1]
    simp [reported, eventItems, declEvent, declItems]
  · obtain ⟨x, hx⟩ := q4.trans s5
    rw [← hx, p2]; rfl

/-- the writer's state before a final `endElement` -/
theorem written_closed (cs : List Call) (hok : ∀ c ∈ cs, CallOk c) (hne : openAfter [] cs ≠ []) :
    ∃ ts last, written (cs ++ [.endElement]) = .ok (prolog ++ src (ts ++ [last])) ∧ (∀ t ∈ ts ++ [last], t.Ok) ∧
      (∀ t ∈ ts ++ [last], TokNoLit t) ∧ last.isTag = true ∧ Indented (said (cs ++ [.endElement])) (items (ts ++ [last])) ∧
      ((∀ c ∈ cs, isIndent c = false) → items (ts ++ [last]) = said (cs ++ [.endElement])) := by
  have hstart : names W.new.startDocument = [] := rfl
  obtain ⟨w, ts, pend, new, e, hi, hn, hit, hd, hf⟩ := run_inv cs hok _ _ _ inv_start
  obtain ⟨w', ts', new', e', s⟩ := endElement_step hi
  rw [hstart] at hn
  obtain ⟨ts0, t, rfl, htag⟩ := s.tag rfl (by rw [hn]; exact hne)
  have run : runCalls W.new.startDocument (cs ++ [.endElement]) = .ok w' := by
    have : ∀ (cs : List Call) (v w : W), runCalls v cs = .ok w → runCalls v (cs ++ [.endElement]) = w.endElement := by
      intro cs
      induction cs with
      | nil =>
        intro v w h
        cases h
        simp only [List.nil_append, runCalls, Call.exec, bind, Except.bind]
        cases v.endElement <;> rfl
      | cons c cs ih =>
        intro v w h
        simp only [runCalls, bind, Except.bind] at h
        simp only [List.cons_append, runCalls, bind, Except.bind]
        cases hc : c.exec v with
        | error x => rw [hc] at h; cases h
        | ok u => rw [hc] at h; exact ih u w h
    rw [this _ _ _ e]; exact e'
  -- said and flag after cs
  have fold : ∀ (cs : List Call) (st : List (List Ch)) (b : Bool), saidFrom st b (cs ++ [.endElement]) =
      saidFrom st b cs ++ (openAfter st cs).head?.toList.map .stop := by
    intro cs
    induction cs with
    | nil => intro st b; cases st <;> cases b <;> simp [saidFrom, openAfter]
    | cons c cs ih =>
      intro st b
      have ho : openAfter st (c :: cs) = openAfter (nextStack st c) cs := by cases c <;> rfl
      rw [List.cons_append, saidFrom_cons, saidFrom_cons, ih, ho, List.append_assoc]
  have hsaid : said (cs ++ [.endElement]) = saidFrom [] false cs ++ sayOne (names w) pend.isSome .endElement := by
    rw [said, fold, hn]; rfl
  have hitems : items (ts0 ++ [t]) = new ++ new' := by
    have := s.itemsEq
    rw [hit] at this
    simpa [pendItems, items] using this
  refine ⟨ts0, t, ?_, s.inv.ok, s.inv.nolit, htag, ?_, ?_⟩
  · have := s.inv.out
    simp only [pendSrc, List.append_nil] at this
    simp only [written, run, bind, Except.bind, pure, Except.pure, this]
  · rw [hitems, hsaid]; exact indented_append hd s.said
  · intro hc
    have hfl : Flat w := by
      have : ∀ (cs : List Call) (v : W) (ts : List Token) (pend : Pend) (w : W), Inv v ts pend → (∀ c ∈ cs, CallOk c) → Flat v → (∀ c ∈ cs, isIndent c = false) →
          runCalls v cs = .ok w → Flat w := by
        intro cs
        induction cs with
        | nil => intro v ts pend w _ _ hf _ h; cases h; exact hf
        | cons c cs ih =>
          intro v ts pend w hv hok hf hc h
          obtain ⟨v1, t1, p1, n1, e1, s1⟩ := WriterProofs.step hv c (hok c (by simp))
          simp only [runCalls, bind, Except.bind, e1] at h
          exact ih v1 t1 p1 w s1.inv (fun x hx => hok x (by simp [hx])) (s1.flat hf (hc c (by simp))).1 (fun x hx => hc x (by simp [hx])) h
      exact this cs _ _ _ w inv_start hok flat_start hc e
    rw [hitems, hsaid, hf flat_start hc, (s.flat hfl rfl).2]; rfl

/-- **C39** (partial: apostrophes are lost, and the XML declaration is reported as an element which never ends.)
Everything written by any history of calls up to an `endElement` that closes an element is read back: the parser accepts
the document and reports, after the XML declaration, exactly what was said by the calls without the apostrophes, up to
indentation in front of tags (and without it when none was asked for).  Local names are right, `startDocument` comes first,
`endDocument` last. -/
theorem read_back_partial (cs : List Call) (hok : ∀ c ∈ cs, CallOk c) (hne : openAfter [] cs ≠ []) :
    ∃ out ev rest, written (cs ++ [.endElement]) = .ok out ∧ parse out = .ok ev ∧ (∀ e ∈ ev, EventOk e) ∧
      ev.head? = some .startDocument ∧ ev.getLast? = some .endDocument ∧
      reported ev = [.start (lit "?xml"), .attr (lit "version") (lit "1.0"), .attr (lit "encoding") (lit "UTF-8"), .char 0x0A] ++ rest ∧
      Indented (withoutApos (said (cs ++ [.endElement]))) rest ∧
      ((∀ c ∈ cs, isIndent c = false) → rest = withoutApos (said (cs ++ [.endElement]))) := by
  obtain ⟨ts, last, h1, h2, h3, h4, h5, h6⟩ := written_closed cs hok hne
  obtain ⟨ev, k1, k2, k3, k4, k5⟩ := parse_written ts last h2 h4
  refine ⟨_, ev, withoutApos (items (ts ++ [last])), h1, k1, k2, k4, k5, ?_, withoutApos_indented h5, fun h => by rw [h6 h]⟩
  rw [k3, gots_withoutApos _ h3]; rfl

/-- no apostrophe in the texts and attribute values of a call -/
def NoApos : Call → Prop
  | .cdata t _ => chr '\'' ∉ t
  | .attribute _ v => chr '\'' ∉ v
  | _ => True

theorem withoutApos_said (cs : List Call) (h : ∀ c ∈ cs, NoApos c) : ∀ st b, withoutApos (saidFrom st b cs) = saidFrom st b cs := by
  have chars : ∀ l : List Ch, chr '\'' ∉ l → l.filter (fun c => decide (c ≠ chr '\'')) = l := by
    intro l hl
    rw [List.filter_eq_self]
    intro c hc
    simp only [ne_eq, decide_not, Bool.not_eq_true', decide_eq_false_iff_not]
    rintro rfl; exact hl hc
  induction cs with
  | nil => intro st b; cases b <;> simp [saidFrom, withoutApos]
  | cons c cs ih =>
    intro st b
    rw [saidFrom_cons, withoutApos_append, ih (fun x hx => h x (by simp [hx]))]
    congr 1
    have hc := h c (by simp)
    cases c with
    | startIndent => rfl
    | endIndent => rfl
    | startElement n => rfl
    | endElement => cases st <;> rfl
    | cdata t e => simp only [sayOne]; rw [withoutApos_chars, chars t hc]
    | base64 d =>
      simp only [sayOne]
      have : (Base64.Spec.encode d).map (fun b => Item.char (b.setWidth 16)) = ((Base64.Spec.encode d).map (fun b => (b.setWidth 16 : Ch))).map .char := by
        simp [Function.comp_def]
      rw [this, withoutApos_chars, chars]
      intro hm
      rw [List.mem_map] at hm
      obtain ⟨x, hx, he⟩ := hm
      exact base64_plain d x hx (by rw [he]; decide)
    | «attribute» n v =>
      simp only [sayOne]
      split
      · simp only [withoutApos]; rw [chars v hc]
      · rfl

/-- **C39** for calls without apostrophes: the text is read back as it was written. -/
theorem read_back_exact (cs : List Call) (hok : ∀ c ∈ cs, CallOk c) (ha : ∀ c ∈ cs, NoApos c) (hi : ∀ c ∈ cs, isIndent c = false)
    (hne : openAfter [] cs ≠ []) :
    ∃ out ev, written (cs ++ [.endElement]) = .ok out ∧ parse out = .ok ev ∧ (∀ e ∈ ev, EventOk e) ∧
      reported ev = declItems ++ said (cs ++ [.endElement]) := by
  obtain ⟨out, ev, rest, h1, h2, h3, _, _, h4, _, h5⟩ := read_back_partial cs hok hne
  refine ⟨out, ev, h1, h2, h3, ?_⟩
  rw [h4, h5 hi, said, withoutApos_said]
  · rfl
  · intro c hc
    rw [List.mem_append, List.mem_singleton] at hc
    rcases hc with hc | rfl
    · exact ha c hc
    · trivial


/-- the hypotheses of both theorems are met: `<a><n:b k="1 < 2">x &amp; y` … -/
example : ∃ cs : List Call, (∀ c ∈ cs, CallOk c) ∧ (∀ c ∈ cs, NoApos c) ∧ (∀ c ∈ cs, isIndent c = false) ∧ openAfter [] cs ≠ [] ∧
    said cs ≠ [] ∧ cs.length = 6 := by
  have n1 : NameOk [0x61] := name_ok _ (by decide) (by decide)
  have n2 : NameOk [0x6E, 0x3A, 0x62] := name_ok _ (by decide) (by decide)
  refine ⟨[.startElement [0x61], .startElement [0x6E, 0x3A, 0x62], .attribute [0x61] [0x31, 0x20, 0x3C, 0x20, 0x32],
    .cdata [0x78, 0x20, 0x26] true, .endElement, .base64 [7]], ?_, ?_, ?_, ?_, ?_, rfl⟩
  · simp only [List.forall_mem_cons, List.not_mem_nil, false_imp_iff, implies_true, and_true]
    exact ⟨n1, n2, n1, rfl, trivial, trivial⟩
  · simp only [List.forall_mem_cons, List.not_mem_nil, false_imp_iff, implies_true, and_true]
    exact ⟨trivial, trivial, by show chr '\'' ∉ _; decide, by show chr '\'' ∉ _; decide, trivial, trivial⟩
  · simp only [List.forall_mem_cons, List.not_mem_nil, false_imp_iff, implies_true, and_true]
    exact ⟨rfl, rfl, rfl, rfl, rfl, rfl⟩
  · decide
  · simp [said, saidFrom]

example : (∀ c ∈ exCalls.dropLast, CallOk c) ∧ openAfter [] exCalls.dropLast ≠ [] :=
  ⟨fun c hc => exCalls_ok c (List.dropLast_subset _ hc), by decide⟩

/-! ### single texts and attributes -/

/-- Text between a start tag and the end tag which neither begins nor ends with white space arrives in one piece, through
`characters`. -/
theorem text_in_one_piece (n s : List Ch) (hn : NameOk n) (h0 : s ≠ []) (h1 : ∀ c, s.head? = some c → isWhitespace c = false)
    (h2 : ∀ c, s.getLast? = some c → isWhitespace c = false) (ha : chr '\'' ∉ s) :
    ∃ out l pre, written [.startElement n, .cdata s true, .endElement] = .ok out ∧
      parse out = .ok (pre ++ [.startElement l n Attrs.empty, .characters s, .endElement l n, .endDocument]) ∧ IsLocalPart n l := by
  have hout : written [.startElement n, .cdata s true, .endElement] =
      .ok (prolog ++ (cLt :: (n ++ [cGt]) ++ (s.map pieceOf).flatMap Piece.src ++ cLt :: (cSlash :: n ++ [cGt]))) := by
    simp [written, runCalls, Call.exec, W.startElement, W.writeCData, W.endElement, W.new, W.startDocument, W.closeTag, W.write, W.markCharacters,
      W.openTag, encode_eq, bind, Except.bind, pure, Except.pure, W.endTag, W.popped, prolog]
  obtain ⟨l, hl1, hl2⟩ := localName_ok n
  obtain ⟨q0, e0, o0, t0, v0⟩ := p_prolog (cLt :: (n ++ [cGt]) ++ (s.map pieceOf).flatMap Piece.src ++ cLt :: (cSlash :: n ++ [cGt]))
  have evOpen : parseTagString (n ++ ([] : List Attr).flatMap Attr.src ++ []) = .ok [.startElement l n Attrs.empty] := by
    exact tag_open_ev n [] [] ⟨hn, by simp, by simp⟩ l hl1
  have evClose : parseTagString ((cSlash :: n) ++ ([] : List Attr).flatMap Attr.src ++ []) = .ok [.endElement l n] := by
    have hw := tag_close_ev n [] ⟨hn, by simp⟩ l hl1
    simpa using hw
  obtain ⟨q1, e1, o1, t1, v1⟩ := p_tag n (name_plain hn) [] (by simp) [] (by simp) _ evOpen q0
    ((s.map pieceOf).flatMap Piece.src ++ cLt :: (cSlash :: n ++ [cGt])) o0
  have e2 := p_text (s.map pieceOf) (piece_text s).1 q1 (cLt :: (cSlash :: n ++ [cGt])) o1
  obtain ⟨q3, e3, o3, t3, v3⟩ := p_tag (cSlash :: n)
      (by intro c hc; rw [List.mem_cons] at hc
          rcases hc with rfl | hc
          · decide
          · exact name_plain hn c hc) [] (by simp) [] (by simp) _ evClose { q1 with token := q1.token ++ (s.map pieceOf).flatMap delivered } []
      ⟨o1.1, o1.2⟩
  have hdel : (s.map pieceOf).flatMap delivered = s := by
    rw [delivered_filter _ (piece_text s).2]
    simp only [List.map_map, Function.comp_def, pieceOf_char, List.map_id']
    rw [List.filter_eq_self]
    intro c hc
    simp only [ne_eq, decide_not, Bool.not_eq_true', decide_eq_false_iff_not]
    rintro rfl; exact ha hc
  refine ⟨_, l, q1.events.dropLast, hout, ?_, hl2⟩
  simp only [parse, bind, Except.bind, pure, Except.pure]
  simp only [List.flatMap_nil, List.append_nil, List.cons_append, List.append_assoc, List.nil_append] at e0 e1 e2 e3 ⊢
  rw [e0, e1, e2, e3, parseLoop]
  show Except.ok (q3.events ++ [.endDocument]) = _
  congr 1
  rw [v3, v1, t1, hdel]
  simp only [List.nil_append, textEvents_solid s h0 h1 h2]
  simp

/-- names and values of an attribute list, as pairs -/
def Attrs.pairs (a : Attrs) : List (List Ch × List Ch) := a.names.zip a.values

/-- `SAXAttributes::value` is the value of the first attribute of that name, or the empty string. -/
theorem attrs_value (a : Attrs) (hlen : a.names.length = a.values.length) (q : List Ch) :
    a.value q = .ok (((a.pairs.find? (fun p => decide (p.1 = q))).map Prod.snd).getD []) ∧
    a.hasValue q = decide (q ∈ a.names) := by
  have key : ∀ (ns vs : List (List Ch)) (i : Nat), ns.length = vs.length →
      (q ∈ ns → ∃ k, indexFrom q ns i = ((i + k : Nat) : Int) ∧ vs[k]? = ((ns.zip vs).find? (fun p => decide (p.1 = q))).map Prod.snd ∧ k < vs.length) ∧
      (q ∉ ns → indexFrom q ns i = -1 ∧ (ns.zip vs).find? (fun p => decide (p.1 = q)) = none) := by
    intro ns
    induction ns with
    | nil => intro vs i _; exact ⟨fun h => (by cases h), fun _ => ⟨rfl, rfl⟩⟩
    | cons n ns ih =>
      intro vs i hl
      cases vs with
      | nil => simp at hl
      | cons v vs =>
        simp only [List.length_cons, Nat.add_right_cancel_iff] at hl
        obtain ⟨i1, i2⟩ := ih vs (i + 1) hl
        by_cases hq : n = q
        · refine ⟨fun _ => ⟨0, by simp [indexFrom, hq], by simp [hq], by simp⟩, fun h => absurd (by rw [hq]; simp) h⟩
        · refine ⟨fun h => ?_, fun h => ?_⟩
          · rw [List.mem_cons] at h
            rcases h with h | h
            · exact absurd h.symm hq
            · obtain ⟨k, k1, k2, k3⟩ := i1 h
              refine ⟨k + 1, ?_, ?_, by simp; omega⟩
              · rw [indexFrom, if_neg hq, k1]; congr 1; omega
              · rw [List.getElem?_cons_succ, k2]; simp [hq]
          · obtain ⟨k1, k2⟩ := i2 (fun hm => h (List.mem_cons_of_mem _ hm))
            exact ⟨by rw [indexFrom, if_neg hq, k1], by simp [hq, k2]⟩
  obtain ⟨k1, k2⟩ := key a.names a.values 0 hlen
  unfold Attrs.value Attrs.hasValue Attrs.indexOf Attrs.pairs
  by_cases h : q ∈ a.names
  · obtain ⟨k, e1, e2, e3⟩ := k1 h
    rw [e1, if_pos (by omega), ← e2]
    simp only [Nat.zero_add, Int.toNat_natCast, List.getElem?_eq_getElem e3, Option.getD_some, h, decide_true, true_and]
    simp only [decide_eq_true_eq]; omega
  · obtain ⟨e1, e2⟩ := k2 h
    rw [e1, e2, if_neg (by omega)]
    simp [h]

/-! ### through a file -/

theorem base64_nonzero (d : List Byte) : ∀ b ∈ Base64.Spec.encode d, (b.setWidth 16 : Ch) ≠ 0 := by
  have hl : ∀ n, ((Base64.Spec.letter n).setWidth 16 : Ch) ≠ 0 := by
    intro n
    have h : ∀ m : Nat, m < 256 → m ≠ 0 → ((BitVec.ofNat 8 m).setWidth 16 : Ch) ≠ 0 := by
      intro m h0 h1 hm
      have key : ((BitVec.ofNat 8 m).setWidth 16 : Ch).toNat = m := by simp; omega
      rw [hm] at key
      exact h1 key.symm
    unfold Base64.Spec.letter
    refine h _ ?_ ?_ <;> (repeat' split) <;> omega
  have hp : (Base64.Spec.pad.setWidth 16 : Ch) ≠ 0 := by decide
  intro b hb
  fun_induction Base64.Spec.encode d with
  | case1 => simp at hb
  | case2 a n =>
    simp only [List.mem_cons, List.not_mem_nil, or_false] at hb
    rcases hb with rfl | rfl | rfl | rfl
    all_goals first | exact hl _ | exact hp
  | case3 a c n =>
    simp only [List.mem_cons, List.not_mem_nil, or_false] at hb
    rcases hb with rfl | rfl | rfl | rfl
    all_goals first | exact hl _ | exact hp
  | case4 a c e t n ih =>
    simp only [List.mem_cons] at hb
    rcases hb with rfl | rfl | rfl | rfl | hb
    all_goals first | exact hl _ | exact ih hb


/-- no NUL character in the arguments of a call -/
def NulFree : Call → Prop
  | .startElement n => (0 : Ch) ∉ n
  | .cdata t _ => (0 : Ch) ∉ t
  | .attribute n v => (0 : Ch) ∉ n ∧ (0 : Ch) ∉ v
  | _ => True

def NulFreeW (w : W) : Prop := (0 : Ch) ∉ w.out ∧ ∀ n ∈ names w, (0 : Ch) ∉ n

theorem nulFree_encode {s r : List Ch} (h : encode s = .ok r) (hs : (0 : Ch) ∉ s) : (0 : Ch) ∉ r := by
  rw [text_escaped] at h
  cases h
  intro hm
  rw [List.mem_flatMap] at hm
  obtain ⟨c, hc, h0⟩ := hm
  unfold escaped at h0
  split at h0
  · exact absurd h0 (by decide +kernel)
  · split at h0
    · exact absurd h0 (by decide +kernel)
    · split at h0
      · exact absurd h0 (by decide +kernel)
      · split at h0
        · exact absurd h0 (by decide +kernel)
        · split at h0
          · exact absurd h0 (by decide +kernel)
          · rw [List.mem_singleton] at h0
            exact hs (h0 ▸ hc)

theorem nulFree_write {w : W} (h : NulFreeW w) {s : List Ch} (hs : (0 : Ch) ∉ s) : NulFreeW (w.write s) := by
  refine ⟨?_, h.2⟩
  show (0 : Ch) ∉ w.out ++ s
  rw [List.mem_append]
  rintro (h1 | h1)
  · exact h.1 h1
  · exact hs h1

theorem nulFree_closeTag {w : W} (h : NulFreeW w) : NulFreeW w.closeTag := by
  unfold W.closeTag
  split
  · exact h
  · rename_i e st hs
    split
    · refine nulFree_write (s := [cGt]) (w := { w with stack := { e with hasContent := true } :: st }) ⟨h.1, ?_⟩ (by decide)
      intro n hn
      exact h.2 n (by simpa [names, hs] using hn)
    · exact h

theorem nulFree_writeIndent {w v : W} (h : NulFreeW w) (hv : w.writeIndent = .ok v) : NulFreeW v := by
  unfold W.writeIndent at hv
  split at hv
  · cases hv
  · cases hv
    refine nulFree_write h ?_
    simp only [List.mem_cons, List.mem_replicate, not_or, not_and]
    exact ⟨by decide, fun _ => by decide⟩

theorem nulFree_openTag {w : W} (h : NulFreeW w) {n : List Ch} (hn : (0 : Ch) ∉ n) (b : Bool) : NulFreeW (w.openTag n b) := by
  refine ⟨(nulFree_write (nulFree_write h (s := [cLt]) (by decide)) hn).1, ?_⟩
  intro m hm
  simp only [names, W.openTag, List.map_cons, List.mem_cons] at hm
  rcases hm with rfl | hm
  · exact hn
  · exact h.2 m hm

theorem nulFree_step (c : Call) (hc : NulFree c) (w v : W) (h : NulFreeW w) (hv : c.exec w = .ok v) : NulFreeW v := by
  have hcl := nulFree_closeTag h
  cases c with
  | startIndent =>
    simp only [Call.exec, W.startIndent] at hv
    split at hv
    · cases hv
    · cases hv; exact ⟨hcl.1, hcl.2⟩
  | endIndent =>
    simp only [Call.exec, W.endIndent] at hv
    split at hv
    · cases hv
    · cases hv; exact ⟨hcl.1, hcl.2⟩
  | startElement n =>
    simp only [Call.exec, W.startElement] at hv
    split at hv
    · cases hv
    · simp only [bind, Except.bind, pure, Except.pure] at hv
      split at hv
      · cases hv
      · rename_i u hu
        cases hv
        exact nulFree_openTag (nulFree_writeIndent hcl hu) hc true
    · cases hv; exact nulFree_openTag hcl hc false
  | endElement =>
    simp only [Call.exec, W.endElement] at hv
    split at hv
    · cases hv; exact ⟨h.1, h.2⟩
    · rename_i e st hs
      have hn : (0 : Ch) ∉ e.name := h.2 _ (by simp [names, hs])
      have hst : ∀ n ∈ st.map Elem.name, (0 : Ch) ∉ n := fun n hn => h.2 n (by simp only [names, hs, List.map_cons]; exact List.mem_cons_of_mem _ hn)
      have tag : ∀ u : W, NulFreeW u → NulFreeW ((u.endTag e.name).popped st) := fun u hu =>
        ⟨(nulFree_write (nulFree_write (nulFree_write hu (s := [cLt, cSlash]) (by decide)) hn) (s := [cGt]) (by decide)).1, hst⟩
      split at hv
      · cases hv
        exact ⟨(nulFree_write h (s := [cSlash, cGt]) (by decide)).1, hst⟩
      · split at hv
        · simp only [bind, Except.bind, pure, Except.pure] at hv
          split at hv
          · cases hv
          · rename_i u hu
            cases hv
            exact tag u (nulFree_writeIndent h hu)
        · cases hv; exact tag w h
  | cdata s e =>
    obtain ⟨m1, m2, _⟩ := markCharacters_same w.closeTag
    have hm : NulFreeW w.closeTag.markCharacters := ⟨by rw [m1]; exact hcl.1, by rw [m2]; exact hcl.2⟩
    cases e with
    | true =>
      simp only [Call.exec, W.writeCData, if_true, bind, Except.bind, pure, Except.pure] at hv
      split at hv
      · cases hv
      · rename_i r hr
        cases hv
        have := nulFree_write hm (nulFree_encode hr hc)
        exact ⟨this.1, this.2⟩
    | false =>
      simp only [Call.exec, W.writeCData, Bool.false_eq_true, if_false] at hv
      cases hv
      have := nulFree_write hm hc
      exact ⟨this.1, this.2⟩
  | base64 d =>
    obtain ⟨m1, m2, _⟩ := closeTagCharacters_same w
    have hm : NulFreeW w.closeTagCharacters := ⟨by rw [m1]; exact hcl.1, by rw [m2]; exact hcl.2⟩
    simp only [Call.exec, W.writeBase64, Base64.encode_rfc4648, bind, Except.bind, pure, Except.pure] at hv
    cases hv
    have h0 : (0 : Ch) ∉ (Base64.Spec.encode d).map (fun b => (b.setWidth 16 : Ch)) := by
      intro hz
      rw [List.mem_map] at hz
      obtain ⟨x, hx, he⟩ := hz
      exact base64_nonzero d x hx he
    have := nulFree_write hm h0
    exact ⟨this.1, this.2⟩
  | «attribute» n s =>
    simp only [Call.exec, W.writeAttribute] at hv
    split at hv
    · cases hv; exact h
    · split at hv
      · cases hv; exact h
      · simp only [bind, Except.bind, pure, Except.pure] at hv
        split at hv
        · cases hv
        · rename_i r hr
          cases hv
          have := nulFree_write (nulFree_write (nulFree_write (nulFree_write (nulFree_write h (s := [cSpace]) (by decide)) hc.1) (s := [cEq, cQuot]) (by decide))
            (nulFree_encode hr hc.2)) (s := [cQuot]) (by decide)
          exact ⟨this.1, this.2⟩

/-- A document written without NUL characters contains none. -/
theorem written_nulFree (cs : List Call) (h : ∀ c ∈ cs, NulFree c) (out : List Ch) (ho : written cs = .ok out) : (0 : Ch) ∉ out := by
  have all : ∀ (cs : List Call), (∀ c ∈ cs, NulFree c) → ∀ (w v : W), NulFreeW w → runCalls w cs = .ok v → NulFreeW v := by
    intro cs
    induction cs with
    | nil => intro _ w v hw hv; cases hv; exact hw
    | cons c cs ih =>
      intro hcs w v hw hv
      simp only [runCalls, bind, Except.bind] at hv
      split at hv
      · cases hv
      · rename_i u hu
        exact ih (fun x hx => hcs x (by simp [hx])) u v (nulFree_step c (hcs c (by simp)) w u hw hu) hv
  simp only [written, bind, Except.bind, pure, Except.pure] at ho
  split at ho
  · cases ho
  · rename_i w hw
    cases ho
    have h0 : NulFreeW W.new.startDocument := by
      refine ⟨?_, fun n hn => (by cases hn)⟩
      show (0 : Ch) ∉ prolog
      decide +kernel
    exact (all cs h _ _ h0 hw).1

/-- The document starts with the XML declaration, whatever the calls. -/
theorem written_declaration (cs : List Call) (out : List Ch) (ho : written cs = .ok out) : prolog <+: out := by
  have cl : ∀ w : W, w.out <+: w.closeTag.out := by
    intro w; unfold W.closeTag; split
    · exact List.prefix_refl _
    · split
      · exact List.prefix_append _ _
      · exact List.prefix_refl _
  have mk : ∀ w : W, w.markCharacters.out = w.out := fun w => (markCharacters_same w).1
  have cc : ∀ w : W, w.closeTagCharacters.out = w.closeTag.out := fun w => (closeTagCharacters_same w).1
  have wi : ∀ w v : W, w.writeIndent = .ok v → w.out <+: v.out := by
    intro w v h; unfold W.writeIndent at h; split at h
    · cases h
    · cases h; exact List.prefix_append _ _
  have pre3 : ∀ a b c d : List Ch, a <+: a ++ b ++ c ++ d := fun a b c d => ⟨b ++ c ++ d, by simp⟩
  have one : ∀ (c : Call) (w v : W), c.exec w = .ok v → w.out <+: v.out := by
    intro c w v hv
    cases c with
    | startIndent =>
      simp only [Call.exec, W.startIndent] at hv
      split at hv
      · cases hv
      · cases hv; exact cl w
    | endIndent =>
      simp only [Call.exec, W.endIndent] at hv
      split at hv
      · cases hv
      · cases hv; exact cl w
    | startElement n =>
      have ot : ∀ (u : W) (b : Bool), u.out <+: (u.openTag n b).out := fun u b => ⟨[cLt] ++ n, by simp [W.openTag, W.write]⟩
      simp only [Call.exec, W.startElement] at hv
      split at hv
      · cases hv
      · simp only [bind, Except.bind, pure, Except.pure] at hv
        split at hv
        · cases hv
        · rename_i u hu; cases hv; exact (cl w).trans ((wi _ _ hu).trans (ot u true))
      · cases hv; exact (cl w).trans (ot _ false)
    | endElement =>
      simp only [Call.exec, W.endElement] at hv
      split at hv
      · cases hv; exact List.prefix_refl _
      · rename_i e st hs
        have tg : ∀ u : W, u.out <+: ((u.endTag e.name).popped st).out := fun u => pre3 u.out [cLt, cSlash] e.name [cGt]
        split at hv
        · cases hv; exact List.prefix_append _ _
        · split at hv
          · simp only [bind, Except.bind, pure, Except.pure] at hv
            split at hv
            · cases hv
            · rename_i u hu; cases hv; exact (wi _ _ hu).trans (tg u)
          · cases hv; exact tg w
    | cdata s e =>
      have base : w.out <+: w.closeTag.markCharacters.out := by rw [mk]; exact cl w
      cases e with
      | true =>
        simp only [Call.exec, W.writeCData, if_true, bind, Except.bind, pure, Except.pure] at hv
        split at hv
        · cases hv
        · cases hv; exact base.trans (List.prefix_append _ _)
      | false =>
        simp only [Call.exec, W.writeCData, Bool.false_eq_true, if_false] at hv
        cases hv; exact base.trans (List.prefix_append _ _)
    | base64 d =>
      have base : w.out <+: w.closeTagCharacters.out := by rw [cc]; exact cl w
      simp only [Call.exec, W.writeBase64, Base64.encode_rfc4648, bind, Except.bind, pure, Except.pure] at hv
      cases hv; exact base.trans (List.prefix_append _ _)
    | «attribute» n s =>
      simp only [Call.exec, W.writeAttribute] at hv
      split at hv
      · cases hv; exact List.prefix_refl _
      · split at hv
        · cases hv; exact List.prefix_refl _
        · simp only [bind, Except.bind, pure, Except.pure] at hv
          split at hv
          · cases hv
          · rename_i r hr
            cases hv
            exact ⟨[cSpace] ++ n ++ [cEq, cQuot] ++ r ++ [cQuot], by simp [W.write]⟩
  have all : ∀ (cs : List Call) (w v : W), runCalls w cs = .ok v → w.out <+: v.out := by
    intro cs
    induction cs with
    | nil => intro w v hv; cases hv; exact List.prefix_refl _
    | cons c cs ih =>
      intro w v hv
      simp only [runCalls, bind, Except.bind] at hv
      split at hv
      · cases hv
      · rename_i u hu; exact (one c w u hu).trans (ih u v hv)
  simp only [written, bind, Except.bind, pure, Except.pure] at ho
  split at ho
  · cases ho
  · rename_i w hw
    cases ho
    exact all cs _ _ hw

/-- **C39**, through a file: the bytes of a written document (without NUL characters), read by `parse(File&)`, give the
same events as the text – every 16-bit character is delivered as it was written. -/
theorem file_read_back (cs : List Call) (h : ∀ c ∈ cs, NulFree c) :
    ∃ out b, written cs = .ok out ∧ bytesOf out = .ok b ∧ parseFile b = parse out := by
  obtain ⟨out, ho⟩ := writer_total cs
  obtain ⟨b, hb⟩ := Charset.Utf8Props.encode_total out
  refine ⟨out, b, ho, hb, ?_⟩
  obtain ⟨r, hr⟩ := written_declaration cs out ho
  have h0 := written_nulFree cs h out ho
  have hne : out.head? ≠ some 0xFEFF := by
    rw [← hr, prolog_src]
    simp only [List.cons_append, List.head?_cons, ne_eq, Option.some.injEq]
    decide
  have hd := Charset.Utf8Props.roundtrip_partial out b [] h0 hne hb
  have hbne : b ≠ [] := by
    intro e
    subst e
    have : Charset.utf8Decode ([] ++ 0 :: []) = .ok [] := Charset.Utf8Props.roundtrip_partial [] [] [] (by simp) (by simp) rfl
    rw [this] at hd
    cases hd
    rw [prolog_src] at hr
    simp at hr
  unfold parseFile
  rw [if_neg hbne]
  simp only [hd, bind, Except.bind]

example : ∀ c ∈ [Call.startElement [0x61], .cdata [0xE4, 0x20AC, 0xD83D] true, .endElement], NulFree c := by
  simp only [List.forall_mem_cons, List.not_mem_nil, false_imp_iff, implies_true, and_true]
  exact ⟨by show (0 : Ch) ∉ _; decide, by show (0 : Ch) ∉ _; decide, trivial⟩

/-! ### what fails -/

/-- the claim in full, for one text -/
def TextReadBack (s : List Ch) : Prop :=
  ∃ out ev, written [.startElement [0x61], .cdata s true, .endElement] = .ok out ∧ parse out = .ok ev ∧
    reported ev = declItems ++ (.start [0x61] :: s.map .char ++ [.stop [0x61]])

/-- A written apostrophe does not come back: the writer escapes it as `&apos;`, which the parser drops. -/
theorem apostrophe_lost (s : List Ch) (h : chr '\'' ∈ s) : ¬ TextReadBack s := by
  rintro ⟨out, ev, h1, h2, h3⟩
  have n1 : NameOk [0x61] := name_ok _ (by decide) (by decide)
  obtain ⟨out', ev', rest, k1, k2, _, _, _, k3, _, k4⟩ := read_back_partial [.startElement [0x61], .cdata s true]
    (by simp only [List.forall_mem_cons, List.not_mem_nil, false_imp_iff, implies_true, and_true]; exact ⟨n1, rfl⟩) (by simp [openAfter])
  have hr := k4 (by simp [isIndent])
  change written [.startElement [0x61], .cdata s true, .endElement] = .ok out' at k1
  rw [h1] at k1; cases k1
  rw [h2] at k2; cases k2
  rw [h3] at k3
  have k3' : (Item.start [0x61] :: s.map .char ++ [.stop [0x61]]) = rest := List.append_cancel_left (as := declItems) k3
  rw [hr] at k3'
  have : said ([.startElement [0x61], .cdata s true] ++ [.endElement]) = .start [0x61] :: s.map .char ++ [.stop [0x61]] := by
    simp [said, saidFrom]
  have hst : ∀ l, withoutApos (.start [0x61] :: l) = .start [0x61] :: withoutApos l := fun _ => rfl
  rw [this, List.cons_append, hst, withoutApos_append, withoutApos_chars] at k3'
  have hl := congrArg List.length k3'
  have hlt : (s.filter (fun c => decide (c ≠ chr '\''))).length < s.length :=
    List.length_filter_lt_length_iff_exists.2 ⟨_, h, by simp⟩
  simp only [withoutApos, List.length_cons, List.length_append, List.length_map, List.length_nil] at hl
  omega

/-- Numeric character references are dropped too. -/
theorem numeric_reference_dropped : parse (lit "<a>x&#65;y</a>") =
    .ok [.startDocument, .startElement (lit "a") (lit "a") Attrs.empty, .characters (lit "xy"), .endElement (lit "a") (lit "a"), .endDocument] := by
  decide +kernel

/-- The start of the declaration is reported, but no end: the events of a written document never balance. -/
theorem declaration_unbalanced : parse (lit "<?xml version=\"1.0\" encoding=\"UTF-8\"?>\n<a/>") =
    .ok [.startDocument, declEvent, .characters [0x0A], .startElement (lit "a") (lit "a") Attrs.empty, .endElement (lit "a") (lit "a"), .endDocument] := by
  decide +kernel

/-- Text behind the last tag is not reported. -/
theorem trailing_text_dropped : parse (lit "<a/>text") = parse (lit "<a/>") := by
  decide +kernel

/-- An ampersand at the end of the text, or an empty tag, raises an exception; a comment is an element named `!--`. -/
theorem bad_input : parse (lit "<a/>&") = .error .thrown ∧ parse (lit "<>") = .error .thrown ∧
    parse (lit "<!-- x -->") = .ok [.startDocument, .startElement (lit "!--") (lit "!--") Attrs.empty, .endDocument] := by
  refine ⟨by decide +kernel, by decide +kernel, by decide +kernel⟩

/-- White space around a text is reported as ignorable, but for one character at either end. -/
theorem white_space_split : parse (lit "<a>  x  </a>") = .ok [.startDocument, .startElement (lit "a") (lit "a") Attrs.empty, .ignorable [0x20],
    .characters (lit " x "), .ignorable [0x20], .endElement (lit "a") (lit "a"), .endDocument] := by
  decide +kernel

/-- Copying a `SAXAttributes` object works on uninitialised pointers. -/
theorem attrs_copy_ub (a : Attrs) : a.copyCtor = .error .ub := rfl

end Verif.Xml
