import Verif.Props.FileContours
import Verif.Props.Pedantry
import Verif.Spec.Read
/-!
# C85: what is read is what the document says
-/
open Fl Fl.Text
namespace GP
open Spec
variable {PD D : Type}

theorem bind_eq_ok {ε α β : Type} {x : Out ε α} {f : α → Out ε β} {b : β} :
    (x >>= f) = .ok b ↔ ∃ a, x = .ok a ∧ f a = .ok b := by
  cases x <;> simp

theorem ofOption_eq_ok {ε α : Type} {e : ε} {o : Option α} {a : α} : Out.ofOption e o = .ok a ↔ o = some a := by
  cases o <;> simp

theorem numberText_iff (s : Str) (x : IOF) : NumberText s x ↔ IOF.parse s = some x := (C79_number s x).symm

theorem needIof_iff (e : Element) (k m b : String) (x : IOF) : needIof e k m b = .ok x ↔ AttrNumber e k x := by
  unfold needIof need AttrNumber
  simp only [bind_eq_ok, ofOption_eq_ok, numberText_iff]

theorem needF32_iff (e : Element) (k m b : String) (x : F32) :
    needF32 e k m b = .ok x ↔ ∃ s, e.get k = some s ∧ FloatText b32 s x := by
  unfold needF32 need
  simp only [bind_eq_ok, ofOption_eq_ok, C79_float b32_p2]

theorem optIof_iff (e : Element) (k : String) (d x : IOF) : optIof e k d = .ok x ↔ AttrNumberOr e k d x := by
  unfold optIof AttrNumberOr AttrNumber
  cases e.get k with
  | none => simp [eq_comm]
  | some s => simp only [ofOption_eq_ok, Option.some.injEq, numberText_iff, reduceCtorEq, false_and, or_false, exists_eq_left']

theorem loadMatrix_iff (e : Element) (m n : Mat6) : loadMatrix e m = .ok n ↔
    AttrNumberOr e "xScale" m.xScale n.xScale ∧ AttrNumberOr e "xyScale" m.xyScale n.xyScale ∧
    AttrNumberOr e "yxScale" m.yxScale n.yxScale ∧ AttrNumberOr e "yScale" m.yScale n.yScale ∧
    AttrNumberOr e "xOffset" m.xOffset n.xOffset ∧ AttrNumberOr e "yOffset" m.yOffset n.yOffset := by
  unfold loadMatrix
  simp only [bind_eq_ok, optIof_iff, Out.ok.injEq]
  constructor
  · rintro ⟨a, ha, b, hb, c, hc, d, hd, f, hf, g, hg, rfl⟩
    exact ⟨ha, hb, hc, hd, hf, hg⟩
  · rintro ⟨ha, hb, hc, hd, hf, hg⟩
    exact ⟨_, ha, _, hb, _, hc, _, hd, _, hf, _, hg, rfl⟩

theorem optColor_iff (e : Element) (c : Option Color) : optColor e = .ok c ↔ ColorSays e c := by
  unfold optColor ColorSays
  cases e.get "color" with
  | none => simp [eq_comm]
  | some s =>
    simp only [bind_eq_ok, C14_accepts, Out.ok.injEq, Option.some.injEq, reduceCtorEq, false_and, false_or, numberText_iff]
    constructor
    · rintro ⟨col, ⟨r, g, b, a, h⟩, rfl⟩
      exact ⟨s, col, r, g, b, a, rfl, rfl, h⟩
    · rintro ⟨_, col, r, g, b, a, rfl, rfl, h⟩
      exact ⟨col, ⟨r, g, b, a, h⟩, rfl⟩

theorem readAdvance_iff (ped : Pedantry) (e : Element) (n : Nat) : readAdvance ped e = .ok n ↔ AdvanceSays ped e n := by
  unfold readAdvance need AdvanceSays WidthSays
  simp only [bind_eq_ok, ofOption_eq_ok, C12_accepts]

theorem readUnicode_iff (e : Element) (c : Char) : readUnicode e = .ok c ↔ UnicodeSays e c := by
  unfold readUnicode need UnicodeSays
  simp only [bind_eq_ok, ofOption_eq_ok, C11_accepts]

theorem anchorClass_iff (o : Option Str) (n : Str) : anchorClass o = some n ↔ o = some n ∧ IsClass n := by
  cases o with
  | none => simp [anchorClass]
  | some m =>
    obtain ⟨h1, h2, -⟩ := C42_class m
    by_cases h : IsClass m
    · rw [h1 h]
      constructor
      · intro e; cases e; exact ⟨rfl, h⟩
      · rintro ⟨e, -⟩; exact e
    · rw [h2 h]
      constructor
      · intro e; cases e
      · rintro ⟨e, hn⟩; cases e; exact absurd hn h

theorem roundsTo_unique {x y z : F32} (h1 : RoundsTo x y) (h2 : RoundsTo x z) : y = z := by
  cases x with
  | nan => exact h1.trans h2.symm
  | num s k h =>
    rcases h1 with ⟨hk, rfl⟩ | ⟨hk, M, j, hj, -, rfl, v1, a1, b1⟩ <;> rcases h2 with ⟨hk', rfl⟩ | ⟨hk', N, i, hi, -, rfl, v2, a2, b2⟩
    · rfl
    · exact absurd hk hk'
    · exact absurd hk' hk
    · have : M = N := by omega
      have : j = i := Fmt.val_inj b32 (by decide) (by rw [v1, v2, this])
      subst this; rfl

theorem readAnchor_iff (ped : Pedantry) (e : Element) (a : Anchor) : readAnchor ped e = .ok a ↔ AnchorSays ped e a := by
  unfold readAnchor AnchorSays
  simp only [bind_eq_ok, needIof_iff]
  constructor
  · rintro ⟨x, hx, y, hy, h⟩
    have hm := (C42_accepted_iff _ ped).1.1 ⟨a, h⟩
    obtain ⟨h1, h2, h3, h4⟩ := C42_result _ _ _ h
    refine ⟨⟨x, y, hx, hy, ?_, ?_, hm⟩, ?_, ?_⟩
    · by_cases hf : OfFontFile ped
      · exact Or.inl ⟨hf, (h2 hf).1⟩
      · exact Or.inr ⟨hf, (h3 hf).1⟩
    · by_cases hf : OfFontFile ped
      · exact Or.inl ⟨hf, (h2 hf).2⟩
      · exact Or.inr ⟨hf, (h3 hf).2⟩
    · intro n; rw [h1]; exact anchorClass_iff _ _
    · rw [h1]; exact h4
  · rintro ⟨⟨x, y, hx, hy, cx, cy, hm⟩, hc, ht⟩
    refine ⟨x, hx, y, hy, ?_⟩
    obtain ⟨b, hb⟩ := (C42_accepted_iff { x := x, y := y, cls := anchorClass (e.get "name") } ped).1.2 hm
    rw [hb]
    obtain ⟨h1, h2, h3, h4⟩ := C42_result _ _ _ hb
    have hcls : b.cls = a.cls := by
      rw [h1]
      refine Option.ext fun n => ?_
      rw [anchorClass_iff, hc]
    have hx' : b.x = a.x := by
      rcases cx with ⟨hf, hr⟩ | ⟨hf, hr⟩
      · exact roundsTo_unique (h2 hf).1 hr
      · rw [(h3 hf).1, hr]
    have hy' : b.y = a.y := by
      rcases cy with ⟨hf, hr⟩ | ⟨hf, hr⟩
      · exact roundsTo_unique (h2 hf).2 hr
      · rw [(h3 hf).2, hr]
    have hty : b.atype = a.atype := by
      rw [← h1, hcls, ← ht] at h4
      cases ha : a.atype <;> cases hb : b.atype <;> simp_all
    cases a; cases b; simp_all

theorem readImage_iff (e : Element) (i : GlifImage) : readImage e = .ok i ↔ ImageSays e i := by
  unfold readImage need ImageSays MatrixSays
  simp only [bind_eq_ok, ofOption_eq_ok, loadMatrix_iff, optColor_iff, Out.ok.injEq]
  constructor
  · rintro ⟨f, hf, m, hm, c, hc, rfl⟩
    exact ⟨hf, hm, rfl, hc⟩
  · rintro ⟨hf, hm, hi, hc⟩
    refine ⟨_, hf, i.m, hm, _, hc, ?_⟩
    rw [← hi]; rfl

theorem readGuideline_iff (e : Element) (g : Guideline) : readGuideline e = .ok g ↔ GuidelineSays e g := by
  unfold readGuideline GuidelineSays
  simp only [bind_eq_ok, needF32_iff, needIof_iff, optColor_iff, Out.ok.injEq]
  constructor
  · rintro ⟨x, hx, y, hy, a, ha, c, hc, rfl⟩
    exact ⟨hx, hy, ha, hc, rfl, rfl⟩
  · rintro ⟨hx, hy, ha, hc, hn, hi⟩
    refine ⟨_, hx, _, hy, _, ha, _, hc, ?_⟩
    rw [← hn, ← hi]

theorem readComponent_iff (e : Element) (c : GlifComponent) : readComponent e = .ok c ↔ ComponentSays e c := by
  unfold readComponent need ComponentSays MatrixSays
  simp only [bind_eq_ok, ofOption_eq_ok, loadMatrix_iff, Out.ok.injEq]
  constructor
  · rintro ⟨m, hm, b, hb, rfl⟩
    exact ⟨hb, hm, rfl, rfl⟩
  · rintro ⟨hb, hm, hi, hf⟩
    refine ⟨c.m, hm, _, hb, ?_⟩
    rw [← hi]; cases c; simp_all [GlifComponent.new]

theorem getText_iff (e : Element) (n : Option Str) : e.getText = n ↔ NoteSays e n := by
  have h : e.getText = if (texts e.children).isEmpty then none else some (texts e.children).flatten := rfl
  rw [h]
  unfold NoteSays
  cases texts e.children <;> simp [eq_comm]

theorem readLib_iff (pio : PlistIO D) (e : Element) (l : Lib D) : readLib pio e = l ↔ LibSays pio e l := by
  unfold readLib LibSays
  simp only []
  rcases h : pio.fromXml { name := "plist", attrs := e.attrs, children := e.children } with _ | _ | d <;> simp [eq_comm]

theorem mapM'_iff {α β : Type} {f : α → R β} {rel : α → β → Prop} (h : ∀ a b, f a = .ok b ↔ rel a b) (l : List α) (r : List β) :
    Out.mapM' f l = .ok r ↔ List.Forall₂ rel l r := by
  induction l generalizing r with
  | nil => simp [Out.mapM', eq_comm]
  | cons a l ih =>
    rw [Out.mapM'_cons, List.forall₂_cons_left_iff]
    simp only [bind_eq_ok, h, ih, Out.ok.injEq]
    constructor
    · rintro ⟨b, hb, bs, hbs, rfl⟩; exact ⟨b, bs, hb, hbs, rfl⟩
    · rintro ⟨b, bs, hb, hbs, rfl⟩; exact ⟨b, hb, bs, hbs, rfl⟩

theorem readOpt_iff {α : Type} {f : Element → R α} {rel : Element → α → Prop} (h : ∀ a b, f a = .ok b ↔ rel a b)
    (o : Option Element) (r : Option α) : readOpt f o = .ok r ↔ Option.Rel rel o r := by
  cases o with
  | none =>
    cases r with
    | none => exact ⟨fun _ => .none, fun _ => rfl⟩
    | some b => exact ⟨fun h => (nomatch h), fun h => (nomatch h)⟩
  | some e =>
    unfold readOpt
    simp only [bind_eq_ok, h, Out.ok.injEq]
    constructor
    · rintro ⟨b, hb, rfl⟩; exact .some hb
    · intro h
      cases h with
      | some hb => exact ⟨_, hb, rfl⟩


theorem pre_components {root : Element} {p : Pre}
    (h : readOpt readOutline (named "outline" root.children).head? = .ok p.outline) :
    List.Forall₂ ComponentSays (componentsOf root) ((p.outline.map Prod.snd).getD []) := by
  unfold componentsOf
  cases ho : (named "outline" root.children).head? with
  | none =>
    rw [ho] at h
    have : p.outline = none := (Out.ok.inj h).symm
    rw [this]; exact .nil
  | some e =>
    rw [ho] at h
    unfold readOpt at h
    simp only [] at h
    obtain ⟨a, ha, h⟩ := bind_eq_ok.1 h
    simp only [Out.ok.injEq] at h
    rw [readOutline_eq] at ha
    unfold readOutlineBy at ha
    obtain ⟨cs, _, ha⟩ := bind_eq_ok.1 ha
    obtain ⟨comps, hc, ha⟩ := bind_eq_ok.1 ha
    cases ha
    rw [← h]
    exact (mapM'_iff readComponent_iff _ _).1 hc

/-- **C85.** Everything in a glyph that was read is what the document says. -/
theorem C85_says (mid : IOF → IOF → IOF) (pio : PlistIO D) (ped : Pedantry) (root : Element) (g : Glif PD D)
    (h : readGlif mid pio ped root = .ok g) : Says pio ped root g := by
  have hc := C08_file mid pio ped root g h
  rw [readGlif_pre] at h
  obtain ⟨p, hp, h⟩ := bind_eq_ok.1 h
  obtain ⟨o, ho, h⟩ := bind_eq_ok.1 h
  rw [Out.ok.injEq] at h
  obtain ⟨h1, h2, h3, h4, h5, h6, h7⟩ := pre_parts hp
  have h8 := pre_components h7
  have hnil : g.outline.getD [] = o := by
    subst h
    unfold glifOf
    simp only []
    split
    · rfl
    · next hn => cases o with
      | nil => rfl
      | cons a l => simp at hn
  have hdrop : o = [] ↔ ∀ e ∈ contoursOf root, Dropped e := by
    rw [hnil] at hc
    rw [← List.length_eq_zero_iff, ← hc.length_eq, List.length_eq_zero_iff, List.filter_eq_nil_iff]
    simp
  have hcomp : (p.outline.map Prod.snd).getD [] = [] ↔ componentsOf root = [] := by
    rw [← List.length_eq_zero_iff, ← h8.length_eq, List.length_eq_zero_iff]
  subst h
  refine ⟨h1, (readOpt_iff (readAdvance_iff ped) _ _).1 h2, (mapM'_iff readUnicode_iff _ _).1 h3,
    (mapM'_iff (readAnchor_iff ped) _ _).1 h4, (mapM'_iff readImage_iff _ _).1 h5, (mapM'_iff readGuideline_iff _ _).1 h6,
    h8, ⟨rfl, rfl⟩, ?_, ?_, ?_, ?_, rfl, ?_⟩
  · intro hn; simp only [glifOf, hn, Option.bind_none]
  · intro e hn; rw [← getText_iff]; simp only [glifOf, hn, Option.bind_some]
  · intro hn; simp only [glifOf, hn]
  · intro e hn; rw [← readLib_iff]; simp only [glifOf, hn]
  · rw [← hdrop, ← hcomp]
    unfold glifOf
    simp only []
    split
    · next hh =>
      simp only [reduceCtorEq, false_iff]
      rintro ⟨e1, e2⟩
      rw [e1, e2] at hh
      simp at hh
    · next hh => simpa using hh

theorem forall₂_unique {α β : Type} {rel : α → β → Prop} (hu : ∀ a b c, rel a b → rel a c → b = c) {l : List α} {m n : List β}
    (h1 : List.Forall₂ rel l m) (h2 : List.Forall₂ rel l n) : m = n := by
  induction h1 generalizing n with
  | nil => cases h2; rfl
  | cons h _ ih =>
    cases h2 with
    | cons h' t => rw [hu _ _ _ h h', ih t]

/-- **C85.** A document says everything: two glyphs of which it says the same are the same but for their
contours. -/
theorem C85_determined (pio : PlistIO D) (ped : Pedantry) (root : Element) (g h : Glif PD D)
    (hg : Says pio ped root g) (hh : Says pio ped root h) : g = { h with outline := g.outline } := by
  have u : ∀ {β : Type} {f : Element → R β} {rel : Element → β → Prop}, (∀ a b, f a = .ok b ↔ rel a b) →
      ∀ a b c, rel a b → rel a c → b = c := by
    intro β f rel hf a b c h1 h2
    have := ((hf a b).2 h1).symm.trans ((hf a c).2 h2)
    exact Out.ok.inj this
  have e1 : g.name = h.name := Option.some.inj (hg.name.symm.trans hh.name)
  have e2 : g.width = h.width :=
    Out.ok.inj (((readOpt_iff (readAdvance_iff ped) _ _).2 hg.width).symm.trans ((readOpt_iff (readAdvance_iff ped) _ _).2 hh.width))
  have e3 := forall₂_unique (u readUnicode_iff) hg.unicode hh.unicode
  have e4 := forall₂_unique (u (readAnchor_iff ped)) hg.anchors hh.anchors
  have e5 := forall₂_unique (u readImage_iff) hg.images hh.images
  have e6 := forall₂_unique (u readGuideline_iff) hg.guidelines hh.guidelines
  have e7 := forall₂_unique (u readComponent_iff) hg.components hh.components
  have e8 : g.note = h.note := by
    cases hn : (named "note" root.children).head? with
    | none => rw [hg.noNote hn, hh.noNote hn]
    | some e => rw [← (getText_iff _ _).2 (hg.note e hn), ← (getText_iff _ _).2 (hh.note e hn)]
  have e9 : g.lib = h.lib := by
    cases hn : (named "lib" root.children).head? with
    | none => rw [hg.noLib hn, hh.noLib hn]
    | some e => rw [← (readLib_iff _ _ _).2 (hg.lib e hn), ← (readLib_iff _ _ _).2 (hh.lib e hn)]
  have e10 : g.components = h.components := by
    have a1 := hg.owner; have a2 := hh.owner
    cases hgc : g.components; cases hhc : h.components
    rw [hgc] at a1 e7; rw [hhc] at a2 e7
    simp only at a1 a2 e7
    rw [a1.1, a1.2, a2.1, a2.2, e7, e1]
  have e11 : g.filename = h.filename := by rw [hg.filename, hh.filename]
  clear hg hh u e7
  cases g; cases h
  simp only at e1 e2 e3 e4 e5 e6 e8 e9 e10 e11
  subst e1 e2 e3 e4 e5 e6 e8 e9 e10 e11
  rfl

/-- **C85.** A glyph is what is read, its contours apart, if and only if the document has no mistake that
stops the reader and says all of it. -/
theorem C85_exact (mid : IOF → IOF → IOF) (pio : PlistIO D) (ped : Pedantry) (root : Element) (g : Glif PD D) :
    (∃ o : Option (Outline PD), readGlif mid pio ped root = .ok { g with outline := o } ∧ (o = none ↔ g.outline = none)) ↔
      Acceptable ped root ∧ (∀ c ∈ contoursOf root, ¬ QuadraticInCubic c) ∧ Says pio ped root g := by
  constructor
  · rintro ⟨o, ho, hn⟩
    have hr := (read_iff (PD := PD) mid pio ped root).1 ⟨_, ho⟩
    have hs := C85_says mid pio ped root _ ho
    refine ⟨hr.1, fun c hc hq => hr.2 ⟨c, hc, hq⟩, ?_⟩
    exact ⟨hs.name, hs.width, hs.unicode, hs.anchors, hs.images, hs.guidelines, hs.components, hs.owner, hs.noNote, hs.note,
      hs.noLib, hs.lib, hs.filename, hn.symm.trans hs.outline⟩
  · rintro ⟨ha, hq, hs⟩
    obtain ⟨g', hg'⟩ := (read_iff (PD := PD) mid pio ped root).2 ⟨ha, fun ⟨c, hc, hqc⟩ => hq c hc hqc⟩
    have hs' := C85_says mid pio ped root _ hg'
    have := C85_determined pio ped root _ _ hs' hs
    refine ⟨g'.outline, by rw [hg', ← this], hs'.outline.trans hs.outline.symm⟩

/-- A document with a width, a code point, an anchor, a guideline and a component is read. -/
example :
    let mid : IOF → IOF → IOF := fun a _ => a
    let pio : PlistIO Unit := ⟨fun _ => none, fun _ => none⟩
    let root : Element :=
      { name := "glyph", attrs := [("name", "a".toList), ("format", "2".toList)]
        children :=
          [.elem "advance" [("width", "500".toList)] [], .elem "unicode" [("hex", "00E1".toList)] [],
            .elem "anchor" [("x", "2.5".toList), ("y", "-1".toList), ("name", "top".toList)] [],
            .elem "guideline" [("x", "10".toList), ("y", "0".toList), ("angle", "90".toList), ("color", "1,0,0,1".toList)] [],
            .elem "outline" [] [.elem "component" [("base", "acute".toList), ("xOffset", "7".toList)] []]] }
    ∃ g : Glif Unit Unit, readGlif mid pio {} root = .ok g ∧ Says pio {} root g ∧ g.unicode = [Char.ofNat 0xE1] := by
  intro mid pio root
  have hok : (match readGlif (PD := Unit) mid pio {} root with | .ok g => some g.unicode | _ => none) = some [Char.ofNat 0xE1] := by
    decide +kernel
  match hr : readGlif (PD := Unit) mid pio {} root with
  | .ok g =>
    rw [hr] at hok
    exact ⟨g, rfl, C85_says mid pio {} root g hr, Option.some.inj hok⟩
  | .err _ => rw [hr] at hok; cases hok
  | .panic => rw [hr] at hok; cases hok

end GP
