import Verif.Xml.TypedFloat
import Verif.Xml.ReadProps
import Verif.Str.CmpProps
import Verif.Num.Props
import Verif.Prefs.DoubleProps
set_option linter.unusedVariables false
/-
C112: typed attributes.  What is written with the overloads of `writeAttribute` is read with the typed readers of
`SAXAttributes`, in any document.
-/
namespace Verif.Xml.TypedProps
open Verif Verif.Str Verif.Xml Verif.Xml.Spec Verif.Xml.WriterProofs Verif.Xml Verif.Xml.TypedFloat

theorem empty_double : DoubleText.toDouble [] = Fp.zero := by decide +kernel
theorem tenth_fin : Fp.Finite (Fp.lit 1 10) := by decide +kernel
theorem zero_float : toFloat Fp.zero = Fp32.zero := by decide +kernel
theorem special_texts : DoubleText.toDouble (DoubleText.valueOf .nan) = Fp.zero ∧
    ∀ s, DoubleText.toDouble (DoubleText.valueOf (Fp.mk s Fp.infBits)) = Fp.zero := by
  refine ⟨by decide +kernel, fun s => ?_⟩
  cases s <;> decide +kernel

attribute [local irreducible] Fp.one Fp.lit Fp.val Fp.units DoubleText.valueOf DoubleText.toDouble

/-! ### the events of a document and its elements -/

def isAttr : Item → Bool
  | .attr _ _ => true
  | _ => false

/-- the list does not begin with an attribute -/
def NoAttrHead (l : List Item) : Prop := ∀ x, l.head? = some x → isAttr x = false

def attrItems (l : List (List Ch × List Ch)) : List Item := l.map (fun x => .attr x.1 x.2)

theorem split_attrs (a b : List (List Ch × List Ch)) (r s : List Item) (hr : NoAttrHead r) (hs : NoAttrHead s)
    (h : attrItems a ++ r = attrItems b ++ s) : a = b ∧ r = s := by
  induction a generalizing b with
  | nil =>
    cases b with
    | nil => exact ⟨rfl, h⟩
    | cons y b =>
      have := hr (.attr y.1 y.2) (by
        have h' : r = attrItems (y :: b) ++ s := h
        rw [h']; rfl)
      cases this
  | cons x a ih =>
    cases b with
    | nil =>
      have := hs (.attr x.1 x.2) (by
        have h' : s = attrItems (x :: a) ++ r := h.symm
        rw [h']; rfl)
      cases this
    | cons y b =>
      simp only [attrItems, List.map_cons, List.cons_append, List.cons.injEq, Item.attr.injEq] at h
      obtain ⟨⟨h1, h2⟩, h3⟩ := h
      obtain ⟨rfl, rfl⟩ := ih b h3
      exact ⟨by rw [show x = y from Prod.ext h1 h2], rfl⟩

theorem eventItems_noAttr (e : Event) : NoAttrHead (eventItems e) := by
  intro x hx
  cases e with
  | startDocument => cases hx
  | endDocument => cases hx
  | startElement l q a => simp only [eventItems, List.head?_cons, Option.some.injEq] at hx; subst hx; rfl
  | endElement l q => simp only [eventItems, List.head?_cons, Option.some.injEq] at hx; subst hx; rfl
  | characters s =>
    cases s with
    | nil => cases hx
    | cons c s => simp only [eventItems, List.map_cons, List.head?_cons, Option.some.injEq] at hx; subst hx; rfl
  | ignorable s =>
    cases s with
    | nil => cases hx
    | cons c s => simp only [eventItems, List.map_cons, List.head?_cons, Option.some.injEq] at hx; subst hx; rfl

theorem reported_noAttr (ev : List Event) : NoAttrHead (reported ev) := by
  induction ev with
  | nil => intro x hx; cases hx
  | cons e ev ih =>
    intro x hx
    have : reported (e :: ev) = eventItems e ++ reported ev := rfl
    rw [this, List.head?_append] at hx
    cases he : (eventItems e).head? with
    | none => rw [he] at hx; exact ih x hx
    | some y => rw [he] at hx; exact eventItems_noAttr e x (by rw [he]; simpa using hx)

theorem chars_no_start (s : List Ch) (p : List Item) (n : List Ch) (r : List Item) : ∀ (q : List Item), s.map Item.char ++ q = p ++ .start n :: r →
    ∃ p', q = p' ++ .start n :: r := by
  induction s generalizing p with
  | nil => intro q h; exact ⟨p, h⟩
  | cons c s ih =>
    intro q h
    cases p with
    | nil => simp at h
    | cons x p =>
      simp only [List.map_cons, List.cons_append, List.cons.injEq] at h
      exact ih p q h.2

/-- an element that is reported is the subject of an event -/
theorem event_of (ev : List Event) : ∀ (p : List Item) (n : List Ch) (as : List (List Ch × List Ch)) (r : List Item), NoAttrHead r →
    reported ev = p ++ .start n :: (attrItems as ++ r) → ∃ l a, Event.startElement l n a ∈ ev ∧ a.names.zip a.values = as := by
  induction ev with
  | nil => intro p n as r hr h; simp [reported] at h
  | cons e ev ih =>
    intro p n as r hr h
    have hcons : reported (e :: ev) = eventItems e ++ reported ev := rfl
    rw [hcons] at h
    have later : ∀ p', reported ev = p' ++ .start n :: (attrItems as ++ r) →
        ∃ l a, Event.startElement l n a ∈ e :: ev ∧ a.names.zip a.values = as := by
      intro p' h'
      obtain ⟨l, a, h1, h2⟩ := ih p' n as r hr h'
      exact ⟨l, a, List.mem_cons_of_mem _ h1, h2⟩
    cases e with
    | startDocument => exact later p h
    | endDocument => exact later p h
    | characters s => obtain ⟨p', h'⟩ := chars_no_start s p n _ _ h; exact later p' h'
    | ignorable s => obtain ⟨p', h'⟩ := chars_no_start s p n _ _ h; exact later p' h'
    | endElement l q =>
      cases p with
      | nil => simp [eventItems] at h
      | cons x p =>
        simp only [eventItems, List.cons_append, List.nil_append, List.cons.injEq] at h
        exact later p h.2
    | startElement l q a =>
      cases p with
      | nil =>
        simp only [eventItems, List.cons_append, List.nil_append, List.cons.injEq, Item.start.injEq] at h
        obtain ⟨h1, h2⟩ := split_attrs (a.names.zip a.values) as _ _ (reported_noAttr ev) hr h.2
        refine ⟨l, a, ?_, h1⟩
        rw [← h.1]; exact List.mem_cons_self
      | cons x p =>
        simp only [eventItems, List.cons_append, List.cons.injEq] at h
        have key : ∀ (b : List (List Ch × List Ch)) (p : List Item), attrItems b ++ reported ev = p ++ .start n :: (attrItems as ++ r) →
            ∃ p', reported ev = p' ++ .start n :: (attrItems as ++ r) := by
          intro b
          induction b with
          | nil => intro p h; exact ⟨p, h⟩
          | cons y b ihb =>
            intro p h
            cases p with
            | nil => simp [attrItems] at h
            | cons z p =>
              simp only [attrItems, List.map_cons, List.cons_append, List.cons.injEq] at h
              exact ihb p h.2
        obtain ⟨p', h'⟩ := key _ p h.2
        exact later p' h'

/-! ### what the writer's calls say about the element -/

theorem said_prefix (pre : List Call) : ∀ st b, ∃ p st' b', ∀ cs, saidFrom st b (pre ++ cs) = p ++ saidFrom st' b' cs := by
  induction pre with
  | nil => intro st b; exact ⟨[], st, b, fun cs => rfl⟩
  | cons c pre ih =>
    intro st b
    obtain ⟨p, st', b', h⟩ := ih (nextStack st c) (nextFlag b c)
    refine ⟨sayOne st b c ++ p, st', b', fun cs => ?_⟩
    rw [List.cons_append, saidFrom_cons, h, List.append_assoc]

def attrCalls (l : List (List Ch × List Ch)) : List Call := l.map (fun x => .attribute x.1 x.2)

theorem said_attrs (as : List (List Ch × List Ch)) (st : List (List Ch)) (cs : List Call) :
    saidFrom st true (attrCalls as ++ cs) = attrItems as ++ saidFrom st true cs := by
  induction as with
  | nil => rfl
  | cons a as ih =>
    simp only [attrCalls, attrItems, List.map_cons, List.cons_append, saidFrom]
    exact congrArg _ ih

theorem said_false_noAttr (cs : List Call) : ∀ st, NoAttrHead (saidFrom st false cs) := by
  induction cs with
  | nil => intro st x hx; simp [saidFrom] at hx
  | cons c cs ih =>
    intro st x hx
    cases c with
    | startIndent => exact ih st x (by simpa [saidFrom] using hx)
    | endIndent => exact ih st x (by simpa [saidFrom] using hx)
    | startElement n => simp only [saidFrom, List.head?_cons, Option.some.injEq] at hx; subst hx; rfl
    | endElement =>
      cases st with
      | nil => exact ih [] x (by simpa [saidFrom] using hx)
      | cons n st => simp only [saidFrom, List.head?_cons, Option.some.injEq] at hx; subst hx; rfl
    | cdata t e =>
      cases t with
      | nil => exact ih st x (by simpa [saidFrom] using hx)
      | cons c t => simp only [saidFrom, List.map_cons, List.cons_append, List.head?_cons, Option.some.injEq] at hx; subst hx; rfl
    | base64 d =>
      simp only [saidFrom] at hx
      cases he : Base64.Spec.encode d with
      | nil => rw [he] at hx; exact ih st x (by simpa using hx)
      | cons y l => rw [he] at hx; simp only [List.map_cons, List.cons_append, List.head?_cons, Option.some.injEq] at hx; subst hx; rfl
    | «attribute» n v => exact ih st x (by simpa [saidFrom] using hx)

def isAttribute : Call → Bool
  | .attribute _ _ => true
  | _ => false

theorem said_true_noAttr (cs : List Call) (st : List (List Ch)) (h : ∀ c, cs.head? = some c → isAttribute c = false) :
    NoAttrHead (saidFrom st true cs) := by
  cases cs with
  | nil => intro x hx; simp [saidFrom] at hx
  | cons c cs =>
    intro x hx
    have hc := h c rfl
    cases c with
    | startIndent => exact said_false_noAttr cs st x (by simpa [saidFrom] using hx)
    | endIndent => exact said_false_noAttr cs st x (by simpa [saidFrom] using hx)
    | startElement n => simp only [saidFrom, List.head?_cons, Option.some.injEq] at hx; subst hx; rfl
    | endElement =>
      cases st with
      | nil => exact said_false_noAttr cs [] x (by simpa [saidFrom] using hx)
      | cons n st => simp only [saidFrom, List.head?_cons, Option.some.injEq] at hx; subst hx; rfl
    | cdata t e =>
      cases t with
      | nil => exact said_false_noAttr cs st x (by simpa [saidFrom] using hx)
      | cons c t => simp only [saidFrom, List.map_cons, List.cons_append, List.head?_cons, Option.some.injEq] at hx; subst hx; rfl
    | base64 d =>
      simp only [saidFrom] at hx
      cases he : Base64.Spec.encode d with
      | nil => rw [he] at hx; exact said_false_noAttr cs st x (by simpa using hx)
      | cons y l => rw [he] at hx; simp only [List.map_cons, List.cons_append, List.head?_cons, Option.some.injEq] at hx; subst hx; rfl
    | «attribute» n v => cases hc

/-- apostrophes left out -/
def plainText (v : List Ch) : List Ch := v.filter (fun c => decide (c ≠ chr '\''))

theorem withoutApos_attrItems (as : List (List Ch × List Ch)) : withoutApos (attrItems as) = attrItems (as.map fun x => (x.1, plainText x.2)) := by
  induction as with
  | nil => rfl
  | cons a as ih =>
    simp only [attrItems, List.map_cons, withoutApos]
    exact congrArg _ ih

/-- the white space of the indentation does not come between an element and its attributes -/
theorem indented_element {a b : List Item} (h : Indented a b) : ∀ (p : List Item) (n : List Ch) (as : List (List Ch × List Ch)) (r : List Item),
    a = p ++ .start n :: (attrItems as ++ r) → ∃ p' r', b = p' ++ .start n :: (attrItems as ++ r') ∧ Indented r r' := by
  have attrs : ∀ (as : List (List Ch × List Ch)) (r b : List Item), Indented (attrItems as ++ r) b →
      ∃ r', b = attrItems as ++ r' ∧ Indented r r' := by
    intro as
    induction as with
    | nil => intro r b h; exact ⟨b, rfl, h⟩
    | cons x as ih =>
      intro r b h
      simp only [attrItems, List.map_cons, List.cons_append] at h
      cases h with
      | same _ h' =>
        obtain ⟨r', h1, h2⟩ := ih r _ h'
        exact ⟨r', by rw [h1]; rfl, h2⟩
  induction h with
  | nil => intro p n as r h; simp at h
  | @same x a b h' ih =>
    intro p n as r h
    cases p with
    | nil =>
      simp only [List.nil_append, List.cons.injEq] at h
      obtain ⟨rfl, rfl⟩ := h
      obtain ⟨r', h1, h2⟩ := attrs as r _ h'
      exact ⟨[], r', by rw [h1]; rfl, h2⟩
    | cons y p =>
      simp only [List.cons_append, List.cons.injEq] at h
      obtain ⟨p', r', h1, h2⟩ := ih p n as r h.2
      exact ⟨x :: p', r', by rw [h1]; rfl, h2⟩
  | @start ws m a b hw h' ih =>
    intro p n as r h
    cases p with
    | nil =>
      simp only [List.nil_append, List.cons.injEq, Item.start.injEq] at h
      obtain ⟨rfl, rfl⟩ := h
      obtain ⟨r', h1, h2⟩ := attrs as r _ h'
      exact ⟨ws.map .char, r', by rw [h1], h2⟩
    | cons y p =>
      simp only [List.cons_append, List.cons.injEq] at h
      obtain ⟨p', r', h1, h2⟩ := ih p n as r h.2
      exact ⟨ws.map .char ++ .start m :: p', r', by rw [h1]; simp, h2⟩
  | @stop ws m a b hw h' ih =>
    intro p n as r h
    cases p with
    | nil => simp at h
    | cons y p =>
      simp only [List.cons_append, List.cons.injEq] at h
      obtain ⟨p', r', h1, h2⟩ := ih p n as r h.2
      exact ⟨ws.map .char ++ .stop m :: p', r', by rw [h1]; simp, h2⟩

theorem indented_noAttr {a b : List Item} (h : Indented a b) (ha : NoAttrHead a) : NoAttrHead b := by
  intro x hx
  cases h with
  | nil => cases hx
  | same y h' => exact ha x hx
  | start ws n hw h' =>
    cases ws with
    | nil => simp only [List.map_nil, List.nil_append, List.head?_cons, Option.some.injEq] at hx; subst hx; rfl
    | cons c ws => simp only [List.map_cons, List.cons_append, List.head?_cons, Option.some.injEq] at hx; subst hx; rfl
  | stop ws n hw h' =>
    cases ws with
    | nil => simp only [List.map_nil, List.nil_append, List.head?_cons, Option.some.injEq] at hx; subst hx; rfl
    | cons c ws => simp only [List.map_cons, List.cons_append, List.head?_cons, Option.some.injEq] at hx; subst hx; rfl

/-- the call without apostrophes in texts and attribute values -/
def dropApos : Call → Call
  | .cdata t e => .cdata (plainText t) e
  | .attribute n v => .attribute n (plainText v)
  | c => c

theorem withoutApos_saidFrom (cs : List Call) : ∀ st b, withoutApos (saidFrom st b cs) = saidFrom st b (cs.map dropApos) := by
  induction cs with
  | nil => intro st b; cases b <;> simp [saidFrom, withoutApos]
  | cons c cs ih =>
    intro st b
    have h1 : nextStack st (dropApos c) = nextStack st c := by cases c <;> rfl
    have h2 : nextFlag b (dropApos c) = nextFlag b c := by cases c <;> rfl
    rw [saidFrom_cons, withoutApos_append, ih, List.map_cons, saidFrom_cons, h1, h2]
    congr 1
    cases c with
    | startIndent => rfl
    | endIndent => rfl
    | startElement n => rfl
    | endElement => cases st <;> rfl
    | cdata t e => simp only [sayOne, dropApos]; rw [withoutApos_chars]; rfl
    | base64 d =>
      have := withoutApos_said [.base64 d] (by intro c hc; rw [List.mem_singleton] at hc; subst hc; trivial) st b
      simp only [saidFrom, List.append_nil] at this
      exact this
    | «attribute» n v =>
      simp only [sayOne, dropApos]
      cases b <;> simp [withoutApos, plainText]

/-- **The element is reported with its attributes**, whatever is written before and after it: a document made by `pre`, the start
of the element `n` with the attributes `as`, and `post` (which does not go on with attributes), closed by `endElement`, is read
as events among which is the start of `n` with exactly these attributes in this order, apostrophes left out. -/
theorem element_read (pre post : List Call) (n : List Ch) (as : List (List Ch × List Ch)) (hpre : ∀ c ∈ pre, CallOk c) (hpost : ∀ c ∈ post, CallOk c)
    (hn : NameOk n) (has : ∀ a ∈ as, NameOk a.1) (hnext : ∀ c, post.head? = some c → isAttribute c = false)
    (hopen : openAfter [] (pre ++ .startElement n :: (attrCalls as ++ post)) ≠ []) :
    ∃ out ev l a, written (pre ++ .startElement n :: (attrCalls as ++ (post ++ [.endElement]))) = .ok out ∧ parse out = .ok ev ∧
      Event.startElement l n a ∈ ev ∧ IsLocalPart n l ∧ a.names.length = a.values.length ∧
      a.names.zip a.values = as.map fun x => (x.1, plainText x.2) := by
  have hok : ∀ c ∈ pre ++ .startElement n :: (attrCalls as ++ post), CallOk c := by
    intro c hc
    simp only [List.mem_append, List.mem_cons, attrCalls, List.mem_map] at hc
    rcases hc with hc | rfl | ⟨x, hx, rfl⟩ | hc
    · exact hpre c hc
    · exact hn
    · exact has x hx
    · exact hpost c hc
  obtain ⟨out, ev, rest, h1, h2, h3, -, -, h4, h5, -⟩ := read_back_partial _ hok hopen
  have e : pre ++ .startElement n :: (attrCalls as ++ post) ++ [Call.endElement] = pre ++ .startElement n :: (attrCalls as ++ (post ++ [.endElement])) := by simp
  rw [e] at h1 h5
  obtain ⟨p, st, b, hp⟩ := said_prefix pre [] false
  have hs : said (pre ++ .startElement n :: (attrCalls as ++ (post ++ [.endElement]))) =
      p ++ .start n :: (attrItems as ++ saidFrom (n :: st) true (post ++ [.endElement])) := by
    rw [said, hp, saidFrom, said_attrs]
  have hw : withoutApos (p ++ .start n :: (attrItems as ++ saidFrom (n :: st) true (post ++ [.endElement]))) =
      withoutApos p ++ .start n :: (attrItems (as.map fun x => (x.1, plainText x.2)) ++
        saidFrom (n :: st) true ((post ++ [Call.endElement]).map dropApos)) := by
    rw [withoutApos_append, ← withoutApos_attrItems, ← withoutApos_saidFrom]
    have : ∀ l, withoutApos (Item.start n :: l) = Item.start n :: withoutApos l := fun _ => rfl
    rw [this, withoutApos_append]
  rw [hs, hw] at h5
  obtain ⟨p', r', k1, k2⟩ := indented_element h5 _ _ _ _ rfl
  have hr : NoAttrHead r' := by
    refine indented_noAttr k2 (said_true_noAttr _ _ ?_)
    intro c hc
    cases post with
    | nil =>
      have : c = dropApos Call.endElement := by
        simpa using hc.symm
      subst this; rfl
    | cons d post =>
      have hd := hnext d rfl
      have : c = dropApos d := by simpa using hc.symm
      rw [this]; cases d <;> first | rfl | cases hd
  rw [k1, ← List.append_assoc] at h4
  obtain ⟨l, a, m1, m2⟩ := event_of ev _ n _ r' hr h4
  have := h3 _ m1
  exact ⟨out, ev, l, a, h1, h2, m1, this.1, this.2, m2⟩

/-! ### values of all types -/

/-- values that can be written and read back: 64-bit integers except the smallest, unsigned ones that fit into `int64`,
finite numbers -/
def Proper : TVal → Prop
  | .text _ => True
  | .int32 z => -2 ^ 31 ≤ z ∧ z < 2 ^ 31
  | .uint32 n => n < 2 ^ 32
  | .int64 z => Num.minInt64 < z ∧ z ≤ Num.maxInt64
  | .uint64 n => (n : Int) ≤ Num.maxInt64
  | .float x => Fp32.Finite x
  | .double x => Fp.Finite x
  | .bool _ => True

/-- what the reader that belongs to the type yields -/
def Reads (a : Attrs) (k : List Ch) : TVal → Prop
  | .text s => a.value k = .ok (plainText s)
  | .int32 z => a.valueAsInt k = .ok z
  | .uint32 n => a.valueAsInt k = .ok n
  | .int64 z => a.valueAsInt k = .ok z
  | .uint64 n => a.valueAsInt k = .ok n
  | .float x => a.valueAsFloat k = .ok x
  | .double x => ∃ y, a.valueAsDouble k = .ok y ∧ Fp.Finite y ∧ |Fp.val y - Fp.val x| ≤ |Fp.val x| / 10 ^ 9 ∧
      ∀ v, Fp.Rounds x v → DoubleText.Normal v → DoubleText.Spec.Ten v → y = x
  | .bool b => a.valueAsInt k = .ok (if b then 1 else 0)

/-- the attribute names `k` for the first time in the list -/
def First (as : List (List Ch × TVal)) (k : List Ch) (v : TVal) : Prop := ∃ x y, as = x ++ (k, v) :: y ∧ k ∉ x.map Prod.fst

theorem plainText_id {l : List Ch} (h : chr '\'' ∉ l) : plainText l = l := by
  unfold plainText
  rw [List.filter_eq_self]
  intro c hc
  simp only [ne_eq, decide_not, Bool.not_eq_true', decide_eq_false_iff_not]
  rintro rfl; exact h hc

theorem digit_apos {c : Ch} (h : isDigit c = true) : c ≠ chr '\'' := by
  rintro rfl; revert h; decide

theorem int_plain {l : List Ch} {z : Int} (h : Num.Props.IsIntNumeral l z) : plainText l = l := by
  apply plainText_id
  intro hc
  unfold Num.Props.IsIntNumeral at h
  split at h
  · obtain ⟨m, rfl, -, hd, -⟩ := h
    rcases List.mem_cons.1 hc with hc | hc
    · revert hc; decide
    · exact digit_apos (hd _ hc) rfl
  · exact digit_apos (h.2.1 _ hc) rfl

theorem sign_apos (s : DoubleText.Spec.Sign) : chr '\'' ∉ s.text := by cases s <;> decide

theorem numeral_apos (n : DoubleText.Spec.Numeral) (hv : n.Valid) : plainText n.text = n.text := by
  apply plainText_id
  have hd : ∀ l : List Ch, (∀ c ∈ l, isDigit c = true) → chr '\'' ∉ l := fun l hl hc => digit_apos (hl _ hc) rfl
  unfold DoubleText.Spec.Numeral.text
  intro hc
  simp only [List.mem_append] at hc
  rcases hc with ((hc | hc) | hc) | hc
  · exact sign_apos _ hc
  · exact hd _ hv.whole hc
  · have hf := hv.frac
    unfold DoubleText.Spec.Numeral.fracDigits at hf
    cases hfr : n.frac with
    | none => rw [hfr] at hc; simp [DoubleText.Spec.fracText] at hc
    | some f =>
      rw [hfr] at hc hf
      rcases List.mem_cons.1 hc with hc | hc
      · revert hc; decide
      · exact hd _ hf hc
  · cases he : n.exp with
    | none => rw [he] at hc; simp [DoubleText.Spec.expoText] at hc
    | some e =>
      rw [he] at hc
      obtain ⟨-, h2⟩ := hv.exp e he
      simp only [DoubleText.Spec.expoText, List.mem_cons, List.mem_append] at hc
      rcases hc with hc | hc | hc
      · revert hc; cases e.1 <;> decide
      · exact sign_apos _ hc
      · exact hd _ h2 hc

theorem double_plain (x : Fp.F64) (hx : Fp.Finite x) : plainText (DoubleText.valueOf x) = DoubleText.valueOf x := by
  obtain ⟨n, hv, ht, -⟩ := DoubleText.valueOf_ten x hx
  rw [ht]; exact numeral_apos n hv

theorem int_case (z : Int) (h1 : Num.minInt64 < z) (h2 : z ≤ Num.maxInt64) : ∃ t, Num.valueOf z = .ok t ∧
    ∀ (a : Attrs) (k : List Ch), a.value k = .ok (plainText t) → a.valueAsInt k = .ok z := by
  obtain ⟨t, e, ht⟩ := Num.Props.valueOf_partial z h1 h2
  refine ⟨t, e, fun a k h => ?_⟩
  rw [int_plain ht] at h
  simp only [Attrs.valueAsInt, h, bind, Except.bind]
  exact Num.Props.toInt_numeral ht h1 h2

/-- every proper value can be written, and its text tells the value -/
theorem content_reads (v : TVal) (hv : Proper v) : ∃ t, v.content = .ok t ∧
    ∀ (a : Attrs) (k : List Ch), a.value k = .ok (plainText t) → Reads a k v := by
  cases v with
  | text s => exact ⟨s, rfl, fun a k h => h⟩
  | int32 z => exact int_case z (by have := hv.1; unfold Num.minInt64; omega) (by have := hv.2; unfold Num.maxInt64; omega)
  | uint32 n => exact int_case n (by unfold Num.minInt64; omega) (by have : n < 2 ^ 32 := hv; unfold Num.maxInt64; omega)
  | int64 z => exact int_case z hv.1 hv.2
  | uint64 n =>
    obtain ⟨t, e, ht⟩ := Num.Props.valueOfU_spec n
    have hz : Num.Props.IsIntNumeral t (n : Int) := by
      unfold Num.Props.IsIntNumeral
      rw [if_neg (by omega)]; simpa using ht
    refine ⟨t, e, fun a k h => ?_⟩
    rw [int_plain hz] at h
    show a.valueAsInt k = _
    simp only [Attrs.valueAsInt, h, bind, Except.bind]
    exact Num.Props.toInt_numeral hz (by unfold Num.minInt64; omega) hv
  | float x =>
    refine ⟨_, rfl, fun a k h => ?_⟩
    rw [double_plain _ (Guess.toDouble_val hv).1] at h
    show a.valueAsFloat k = _
    simp only [Attrs.valueAsFloat, h, bind, Except.bind, pure, Except.pure]
    rw [float_returns x hv]
  | double x =>
    refine ⟨_, rfl, fun a k h => ?_⟩
    rw [double_plain _ hv] at h
    obtain ⟨f, c⟩ := DoubleText.roundtrip_close x hv
    refine ⟨_, ?_, f, c, fun v h1 h2 h3 => (DoubleText.ten_returns hv h1 h2 h3).2⟩
    simp only [Attrs.valueAsDouble, h, bind, Except.bind, pure, Except.pure]
  | bool b =>
    refine int_case _ ?_ ?_ <;> cases b <;> decide

/-- the texts of the attributes -/
theorem contents (as : List (List Ch × TVal)) (h : ∀ a ∈ as, Proper a.2) : ∃ ts : List (List Ch × List Ch),
    (∀ w : W, w.writeAll as = runCalls w (attrCalls ts)) ∧ ts.map Prod.fst = as.map Prod.fst ∧
    ∀ k v, First as k v → ∃ x y t, ts = x ++ (k, t) :: y ∧ k ∉ x.map Prod.fst ∧
      ∀ (a : Attrs) (k : List Ch), a.value k = .ok (plainText t) → Reads a k v := by
  induction as with
  | nil =>
    refine ⟨[], fun w => rfl, rfl, ?_⟩
    rintro k v ⟨x, y, h, -⟩; simp at h
  | cons a as ih =>
    obtain ⟨ts, h1, h2, h3⟩ := ih (fun b hb => h b (List.mem_cons_of_mem _ hb))
    obtain ⟨t, e, ht⟩ := content_reads a.2 (h a List.mem_cons_self)
    refine ⟨(a.1, t) :: ts, ?_, by simp [h2], ?_⟩
    · intro w
      simp only [W.writeAll, W.writeTyped, e, attrCalls, List.map_cons, runCalls, Call.exec, bind, Except.bind]
      cases w.writeAttribute a.1 t with
      | error f => rfl
      | ok w' => exact h1 w'
    · rintro k v ⟨x, y, hxy, hk⟩
      cases x with
      | nil =>
        simp only [List.nil_append, List.cons.injEq] at hxy
        obtain ⟨rfl, rfl⟩ := hxy
        exact ⟨[], ts, t, rfl, by simp, ht⟩
      | cons b x =>
        simp only [List.cons_append, List.cons.injEq] at hxy
        obtain ⟨rfl, hxy⟩ := hxy
        obtain ⟨x', y', t', k1, k2, k3⟩ := h3 k v ⟨x, y, hxy, fun hm => hk (List.mem_cons_of_mem _ hm)⟩
        refine ⟨(a.1, t) :: x', y', t', by rw [k1]; rfl, ?_, k3⟩
        intro hm
        simp only [List.map_cons, List.mem_cons] at hm
        rcases hm with hm | hm
        · exact hk (by rw [hm]; simp)
        · exact k2 hm

theorem runCalls_append (cs ds : List Call) : ∀ w, runCalls w (cs ++ ds) = (do let w ← runCalls w cs; runCalls w ds) := by
  induction cs with
  | nil => intro w; rfl
  | cons c cs ih =>
    intro w
    simp only [List.cons_append, runCalls, bind, Except.bind]
    cases c.exec w with
    | error e => rfl
    | ok w' => simp only [ih, bind, Except.bind]

/-- `valueAsBool` is true exactly for the word `true` in any mixture of capital and small letters. -/
theorem valueAsBool_spec {a : Attrs} {k v : List Ch} (h : a.value k = .ok v) :
    a.valueAsBool k = .ok (decide (v.map toLowerCh = (lit "true").map toLowerCh)) := by
  obtain ⟨s, e1, w1, c1⟩ := EditProps.constructed v
  obtain ⟨t, e2, w2, c2⟩ := EditProps.constructed (lit "true")
  simp only [Attrs.valueAsBool, h, e1, e2, bind, Except.bind]
  rw [CmpProps.equalsIgnoreCase_iff w1 w2, c1, c2]

/-- **C112.**  In any document — written by any calls `pre` and `post` around the element, with or without indentation — the
attributes of an element written with the overloads of `writeAttribute` are read back through the reader of their type:
integers exactly, every finite `float` exactly, a finite `double` up to a billionth and exactly if it is nearest to a
number with at most ten significant digits, texts without their apostrophes.  Other names have no value: 0, 0.0, `false`.
Missing: the smallest `int64` (`int_min_ub`), unsigned numbers above the largest `int64` (`big_unsigned`), NaN and infinity
(`special_lost`), booleans as booleans (`bool_lost`). -/
theorem typed_roundtrip_partial (pre post : List Call) (n : List Ch) (as : List (List Ch × TVal)) (hpre : ∀ c ∈ pre, CallOk c)
    (hpost : ∀ c ∈ post, CallOk c) (hn : NameOk n) (has : ∀ a ∈ as, NameOk a.1 ∧ Proper a.2)
    (hnext : ∀ c, post.head? = some c → isAttribute c = false) (hopen : openAfter [] (pre ++ .startElement n :: post) ≠ []) :
    ∃ out ev l a, writtenWith pre n as (post ++ [.endElement]) = .ok out ∧ parse out = .ok ev ∧
      Event.startElement l n a ∈ ev ∧ IsLocalPart n l ∧ a.names = as.map Prod.fst ∧ a.values.length = as.length ∧
      (∀ k v, First as k v → a.hasValue k = true ∧ Reads a k v) ∧
      ∀ k, k ∉ as.map Prod.fst → a.hasValue k = false ∧ a.value k = .ok [] ∧ a.valueAsInt k = .ok 0 ∧
        a.valueAsDouble k = .ok Fp.zero ∧ a.valueAsFloat k = .ok Fp32.zero ∧ a.valueAsBool k = .ok false := by
  obtain ⟨ts, h1, h2, h3⟩ := contents as (fun a ha => (has a ha).2)
  have hts : ∀ a ∈ ts, NameOk a.1 := by
    intro a ha
    have : a.1 ∈ as.map Prod.fst := by rw [← h2]; exact List.mem_map_of_mem ha
    obtain ⟨b, hb, e⟩ := List.mem_map.1 this
    rw [← e]; exact (has b hb).1
  have ho : ∀ (us : List (List Ch × List Ch)) (st : List (List Ch)), openAfter st (attrCalls us ++ post) = openAfter st post := by
    intro us
    induction us with
    | nil => intro st; rfl
    | cons u us ih => intro st; exact ih st
  have ho' : ∀ (st : List (List Ch)), openAfter st (pre ++ .startElement n :: (attrCalls ts ++ post)) = openAfter st (pre ++ .startElement n :: post) := by
    clear hopen hpre
    induction pre with
    | nil => intro st; exact ho ts _
    | cons c pre ih => intro st; cases c <;> exact ih _
  obtain ⟨out, ev, l, a, k1, k2, k3, k4, k5, k6⟩ := element_read pre post n ts hpre hpost hn hts hnext (by rw [ho']; exact hopen)
  have hw : writtenWith pre n as (post ++ [.endElement]) = .ok out := by
    rw [← k1]
    simp only [writtenWith, written, runCalls_append, runCalls, Call.exec, h1, bind, Except.bind, pure, Except.pure]
    cases runCalls W.new.startDocument pre with
    | error e => rfl
    | ok w =>
      simp only
      cases w.startElement n with
      | error e => rfl
      | ok w =>
        simp only
        cases runCalls w (attrCalls ts) with
        | error e => rfl
        | ok w => rfl
  have hnames : a.names = as.map Prod.fst := by
    have := congrArg (List.map Prod.fst) k6
    rw [List.map_fst_zip (by omega), List.map_map] at this
    rw [this, ← h2]; rfl
  refine ⟨out, ev, l, a, hw, k2, k3, k4, hnames, by rw [← k5, hnames, List.length_map], ?_, ?_⟩
  · intro k v hf
    obtain ⟨v1, v2⟩ := attrs_value a k5 k
    obtain ⟨x, y, t, e1, e2, e3⟩ := h3 k v hf
    refine ⟨?_, e3 a k ?_⟩
    · rw [v2, hnames, ← h2, e1]; simp
    · rw [v1, Attrs.pairs, k6, e1]
      have : ((x ++ (k, t) :: y).map fun x => (x.1, plainText x.2)).find? (fun p => decide (p.1 = k)) = some (k, plainText t) := by
        rw [List.map_append, List.find?_append]
        have hx : (x.map fun x => (x.1, plainText x.2)).find? (fun p => decide (p.1 = k)) = none := by
          rw [List.find?_eq_none]
          intro p hp
          obtain ⟨q, hq, rfl⟩ := List.mem_map.1 hp
          simp only [decide_eq_true_eq]
          intro e; exact e2 (by rw [← e]; exact List.mem_map_of_mem hq)
        rw [hx]; simp
      rw [this]; rfl
  · intro k hk
    obtain ⟨v1, v2⟩ := attrs_value a k5 k
    have hv : a.value k = .ok [] := by
      rw [v1]
      have : a.pairs.find? (fun p => decide (p.1 = k)) = none := by
        rw [List.find?_eq_none]
        intro p hp
        simp only [decide_eq_true_eq]
        rintro rfl
        exact hk (hnames ▸ (List.of_mem_zip hp).1)
      rw [this]; rfl
    refine ⟨?_, hv, ?_, ?_, ?_, ?_⟩
    · rw [v2]; simpa [hnames] using hk
    · simp only [Attrs.valueAsInt, hv, bind, Except.bind]; rfl
    · simp only [Attrs.valueAsDouble, hv, bind, Except.bind, pure, Except.pure, empty_double]
    · simp only [Attrs.valueAsFloat, hv, bind, Except.bind, pure, Except.pure, empty_double, zero_float]
    · rw [valueAsBool_spec hv]; rfl

/-- an element with six attributes -/
def exAttrs : List (List Ch × TVal) :=
  [(lit "i", .int32 (-7)), (lit "u", .uint64 12345678901), (lit "f", .float (Fp32.lit 1 10)), (lit "d", .double (Fp.lit 1 10)), (lit "b", .bool true),
    (lit "t", .text (lit "1 < 2"))]

theorem tenths : Fp32.Finite (Fp32.lit 1 10) := by decide +kernel

theorem name_of (s : List Ch) (h1 : s ≠ []) (h2 : s.all (fun c => decide (¬ (c = 0x20 ∨ c = 0x09 ∨ c = 0x0D ∨ c = 0x0A) ∧ c ≠ 0x08 ∧ c ≠ 0x0C ∧
    c ≠ chr '<' ∧ c ≠ chr '>' ∧ c ≠ chr '&' ∧ c ≠ chr '=' ∧ c ≠ chr '/' ∧ c ≠ chr '"' ∧ c ≠ chr '\'')) = true) : NameOk s :=
  ⟨h1, fun c hc => by
    have := List.all_eq_true.1 h2 c hc
    unfold IsS
    exact of_decide_eq_true this⟩

/-- the hypotheses are met: the element is inside another one, text behind it -/
example : (∀ c ∈ [Call.startElement (lit "a")], CallOk c) ∧ (∀ c ∈ [Call.cdata (lit "x") true, .endElement], CallOk c) ∧ NameOk (lit "n:b") ∧
    (∀ a ∈ exAttrs, NameOk a.1 ∧ Proper a.2) ∧ openAfter [] ([Call.startElement (lit "a")] ++ .startElement (lit "n:b") :: [Call.cdata (lit "x") true, .endElement]) ≠ [] ∧
    First exAttrs (lit "f") (.float (Fp32.lit 1 10)) := by
  refine ⟨?_, ?_, name_of _ (by decide) (by decide), ?_, by decide, ⟨[(lit "i", .int32 (-7)), (lit "u", .uint64 12345678901)], _, rfl, by decide⟩⟩
  · simp only [List.forall_mem_cons, List.not_mem_nil, false_imp_iff, implies_true, and_true]
    exact name_of _ (by decide) (by decide)
  · simp only [List.forall_mem_cons, List.not_mem_nil, false_imp_iff, implies_true, and_true]
    exact ⟨rfl, trivial⟩
  · simp only [exAttrs, List.forall_mem_cons, List.not_mem_nil, false_imp_iff, implies_true, and_true]
    refine ⟨⟨name_of _ (by decide) (by decide), ?_⟩, ⟨name_of _ (by decide) (by decide), ?_⟩, ⟨name_of _ (by decide) (by decide), tenths⟩,
      ⟨name_of _ (by decide) (by decide), ?_⟩, ⟨name_of _ (by decide) (by decide), trivial⟩, name_of _ (by decide) (by decide), trivial⟩
    · show -2 ^ 31 ≤ (-7 : Int) ∧ _; decide
    · show ((12345678901 : Nat) : Int) ≤ Num.maxInt64; decide
    · exact tenth_fin

/-! ### what is lost -/

/-- Violation: there is no overload for `bool`.  A `bool` is written as 1 or 0, and `valueAsBool` of that attribute is false for
both. -/
theorem bool_lost (b : Bool) : ∃ t, (TVal.bool b).content = .ok t ∧
    ∀ (a : Attrs) (k : List Ch), a.value k = .ok t → a.valueAsBool k = .ok false := by
  refine ⟨if b then [0x31] else [0x30], by cases b <;> decide +kernel, fun a k h => ?_⟩
  rw [valueAsBool_spec h]
  cases b <;> decide

/-- the text that would be needed -/
theorem bool_words {a : Attrs} {k : List Ch} (b : Bool) (h : a.value k = .ok (Num.valueOfBool b)) : a.valueAsBool k = .ok b := by
  rw [valueAsBool_spec h]
  cases b <;> decide

/-- Violation: `writeAttribute` of the smallest `int64` is undefined. -/
theorem int_min_ub (w : W) (n : List Ch) : w.writeTyped n (.int64 Num.minInt64) = .error .ub := by
  simp only [W.writeTyped, TVal.content, Num.Props.valueOf_min_overflows, bind, Except.bind]

theorem toIntLoop_overflow (l : List Ch) (hl : ∀ c ∈ l, isDigit c = true) (v : Nat) (hv : (v : Int) ≤ Num.maxInt64) (neg : Bool)
    (hb : Num.maxInt64 < ((v * 10 ^ l.length + Num.Props.natVal l : Nat) : Int)) : Num.toIntLoop l v neg = .error .ub := by
  induction l generalizing v with
  | nil => simp [Num.Props.natVal] at hb; omega
  | cons c l ih =>
    have hc : isDigit c = true := hl c (by simp)
    have hdv : digitValue c = (Num.Props.digitVal c : Int) := by
      simp only [isDigit, decide_eq_true_eq] at hc
      simp only [digitValue, hc, and_self, if_true, Num.Props.digitVal]; omega
    have e : v * 10 ^ (c :: l).length + Num.Props.natVal (c :: l) = (v * 10 + Num.Props.digitVal c) * 10 ^ l.length + Num.Props.natVal l := by
      have := Num.Props.natVal_append [c] l
      simp only [List.singleton_append] at this
      rw [this]
      simp only [Num.Props.natVal, List.foldl_cons, List.foldl_nil, List.length_cons, Nat.pow_succ, Nat.add_mul]
      simp only [Nat.mul_zero, Nat.zero_add]
      rw [Nat.mul_assoc v 10, Nat.mul_comm 10]
      omega
    rw [e] at hb
    unfold Num.toIntLoop
    rw [if_pos hc]
    by_cases h1 : (v : Int) * 10 ≤ Num.maxInt64
    · have i1 : Num.i64 ((v : Int) * 10) = .ok ((v : Int) * 10) := by
        unfold Num.i64; rw [if_pos]; unfold Num.minInt64; omega
      by_cases h2 : ((v * 10 + Num.Props.digitVal c : Nat) : Int) ≤ Num.maxInt64
      · have i2 : Num.i64 ((v : Int) * 10 + digitValue c) = .ok (((v * 10 + Num.Props.digitVal c : Nat) : Int)) := by
          rw [hdv]; unfold Num.i64; rw [if_pos]
          · rfl
          · unfold Num.minInt64; omega
        simp only [i1, i2, bind, Except.bind]
        exact ih (fun x hx => hl x (by simp [hx])) _ h2 hb
      · have i2 : Num.i64 ((v : Int) * 10 + digitValue c) = .error .ub := by
          rw [hdv]; unfold Num.i64; rw [if_neg]; omega
        simp only [i1, i2, bind, Except.bind]
    · have i1 : Num.i64 ((v : Int) * 10) = .error .ub := by
        unfold Num.i64; rw [if_neg]; omega
      simp only [i1, bind, Except.bind]

/-- Violation: every `uint64` above the largest `int64` is written, and reading it is undefined behaviour. -/
theorem big_unsigned (n : Nat) (hn : Num.maxInt64 < (n : Int)) : ∃ t, (TVal.uint64 n).content = .ok t ∧
    ∀ (a : Attrs) (k : List Ch), a.value k = .ok t → a.valueAsInt k = .error .ub := by
  obtain ⟨t, e, -, hd, -, hv⟩ := Num.Props.valueOfU_spec n
  refine ⟨t, e, fun a k h => ?_⟩
  have := toIntLoop_overflow t hd 0 (by decide) false (by rw [hv]; simpa using hn)
  have h' : Num.toIntLoop t 0 false = .error .ub := this
  simp only [Attrs.valueAsInt, h, bind, Except.bind, Num.toInt, h']

example : Num.maxInt64 < ((2 ^ 63 : Nat) : Int) := by decide

/-- Violation: NaN and the infinities are read back as 0. -/
theorem special_lost : ∀ x, (x = Fp.F64.nan ∨ ∃ s, x = Fp.mk s Fp.infBits) → ∃ t, (TVal.double x).content = .ok t ∧
    ∀ (a : Attrs) (k : List Ch), a.value k = .ok t → a.valueAsDouble k = .ok Fp.zero := by
  intro x hx
  refine ⟨_, rfl, fun a k h => ?_⟩
  simp only [Attrs.valueAsDouble, h, bind, Except.bind, pure, Except.pure]
  rcases hx with rfl | ⟨s, rfl⟩
  · rw [special_texts.1]
  · rw [special_texts.2]

/-- Violation: a text with an apostrophe is not read back. -/
theorem apostrophe_dropped (s : List Ch) : plainText s = s ↔ chr '\'' ∉ s := by
  constructor
  · intro h hm
    rw [← h] at hm
    have := (List.mem_filter.1 hm).2
    simp at this
  · exact plainText_id

/-! ### access by position -/

/-- `count`, `qualifiedName(i)`, `value(i)`: positions below `count` give the names and values in the order of the document,
other positions throw; `type` is always `CDATA`, `uri` always empty; the versions with a `uri` ignore it. -/
theorem by_position (a : Attrs) (hlen : a.names.length = a.values.length) (h32 : a.names.length < 2 ^ 32) :
    a.count = a.names.length ∧ (∀ i, i < a.count → ∃ q v, a.qualifiedName i = .ok q ∧ a.valueAt i = .ok v ∧ (a.names.zip a.values)[i]? = some (q, v)) ∧
    (∀ i, a.count ≤ i → a.qualifiedName i = .error .thrown ∧ a.localName i = .error .thrown ∧ a.valueAt i = .error .thrown) ∧
    (∀ u q, a.valueNs u q = a.value q ∧ a.indexOfNs u q = a.indexOf q) ∧ a.type = lit "CDATA" ∧ ∀ i, a.uri i = [] := by
  have hc : a.count = a.names.length := Nat.mod_eq_of_lt h32
  refine ⟨hc, ?_, ?_, ?_, rfl, fun _ => rfl⟩
  · intro i h
    rw [hc] at h
    refine ⟨a.names[i], a.values[i]'(by omega), ?_, ?_, ?_⟩
    · simp only [Attrs.qualifiedName, at?, List.getElem?_eq_getElem h]
    · simp only [Attrs.valueAt, at?, List.getElem?_eq_getElem (show i < a.values.length by omega)]
    · rw [List.getElem?_eq_getElem (by rw [List.length_zip]; omega), List.getElem_zip]
  · intro i h
    rw [hc] at h
    refine ⟨?_, ?_, ?_⟩
    · simp only [Attrs.qualifiedName, at?, List.getElem?_eq_none h]
    · simp only [Attrs.localName, at?, List.getElem?_eq_none h]
    · simp only [Attrs.valueAt, at?, List.getElem?_eq_none (show a.values.length ≤ i by omega)]
  · intro u q
    refine ⟨?_, rfl⟩
    unfold Attrs.valueNs Attrs.value Attrs.indexOfNs at?
    rfl

/-- Violation: `localName(i)` is the qualified name, prefix and all. -/
theorem localName_qualified : ¬ ∀ (a : Attrs) (i : Nat) (q l : List Ch), a.qualifiedName i = .ok q → a.localName i = .ok l → IsLocalPart q l := by
  intro h
  have := (h ⟨[lit "n:b"], [[]]⟩ 0 (lit "n:b") (lit "n:b") rfl rfl).1
  exact this (by decide)

end Verif.Xml.TypedProps
