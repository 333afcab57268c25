import Verif.Props.FileContours
import Verif.Props.Text
import Verif.Spec.Pedantry
/-!
# C80: what pedantry changes
-/
open Fl Fl.Text
namespace GP
open Spec
variable {PD D : Type}

/-- What the checks of the reader have read. -/
theorem pre_parts {ped : Pedantry} {root : Element} {p : Pre}
    (h : readPre ped root.name root.get (fun n => named n root.children) = .ok p) :
    root.get "name" = some p.name ∧
    readOpt (readAdvance ped) (named "advance" root.children).head? = .ok p.width ∧
    Out.mapM' readUnicode (named "unicode" root.children) = .ok p.unicode ∧
    Out.mapM' (readAnchor ped) (named "anchor" root.children) = .ok p.anchors ∧
    Out.mapM' readImage (named "image" root.children) = .ok p.images ∧
    Out.mapM' readGuideline (named "guideline" root.children) = .ok p.guidelines ∧
    readOpt readOutline (named "outline" root.children).head? = .ok p.outline := by
  unfold readPre at h
  split at h
  · cases h
  · cases e0 : root.get "format" with
    | none => rw [e0] at h; cases h
    | some f =>
      rw [e0, Out.ofOption_some, Out.bind_ok] at h
      split at h
      · cases h
      · cases e1 : root.get "name" with
        | none => rw [e1] at h; cases h
        | some nm =>
          rw [e1, Out.ofOption_some, Out.bind_ok] at h
          cases e2 : readOpt (readAdvance ped) (named "advance" root.children).head? <;> rw [e2] at h <;> try cases h
          rw [Out.bind_ok] at h
          cases e3 : Out.mapM' readUnicode (named "unicode" root.children) <;> rw [e3] at h <;> try cases h
          rw [Out.bind_ok] at h
          cases e4 : Out.mapM' (readAnchor ped) (named "anchor" root.children) <;> rw [e4] at h <;> try cases h
          rw [Out.bind_ok] at h
          cases e5 : Out.mapM' readImage (named "image" root.children) <;> rw [e5] at h <;> try cases h
          rw [Out.bind_ok] at h
          cases e6 : Out.mapM' readGuideline (named "guideline" root.children) <;> rw [e6] at h <;> try cases h
          rw [Out.bind_ok] at h
          cases e7 : readOpt readOutline (named "outline" root.children).head? <;> rw [e7] at h <;> try cases h
          exact ⟨rfl, rfl, rfl, rfl, rfl, rfl, rfl⟩

theorem readWidth_agree {p q : Pedantry} {w : Str} {m n : Nat} (hm : readWidth p w = .ok m) (hn : readWidth q w = .ok n) :
    m = n := by
  unfold readWidth at hm hn
  cases h1 : parseU64 w with
  | some i => rw [h1] at hm hn; cases hm; cases hn; rfl
  | none =>
    rw [h1] at hm hn
    simp only [] at hm hn
    cases h2 : parseFloat b32 w with
    | none => rw [h2] at hm; cases hm
    | some f =>
      rw [h2] at hm hn
      simp only [] at hm hn
      split at hm
      · cases hm
      · rename_i hs
        rw [if_neg hs] at hn
        split at hm
        · cases hm
        · split at hn
          · cases hn
          · cases hm; cases hn; rfl

theorem readAdvance_agree {p q : Pedantry} {o : Option Element} {m n : Option Nat}
    (hm : readOpt (readAdvance p) o = .ok m) (hn : readOpt (readAdvance q) o = .ok n) : m = n := by
  cases o with
  | none => cases hm; cases hn; rfl
  | some e =>
    unfold readOpt readAdvance need at hm hn
    simp only [] at hm hn
    cases hw : e.get "width" with
    | none => rw [hw] at hm; cases hm
    | some w =>
      rw [hw, Out.ofOption_some, Out.bind_ok] at hm hn
      cases e1 : readWidth p w <;> rw [e1] at hm <;> try cases hm
      cases e2 : readWidth q w <;> rw [e2] at hn <;> try cases hn
      rw [readWidth_agree e1 e2]


theorem readAnchor_agree {p q : Pedantry} {e : Element} {a b : Anchor}
    (ha : readAnchor p e = .ok a) (hb : readAnchor q e = .ok b) : AnchorReread p q a b := by
  unfold readAnchor at ha hb
  cases e1 : needIof e "x" "<anchor> missing x" "<anchor> x not integer/float" with
  | err => rw [e1] at ha; cases ha
  | panic => rw [e1] at ha; cases ha
  | ok x =>
    cases e2 : needIof e "y" "<anchor> missing y" "<anchor> y not integer/float" with
    | err => rw [e1, Out.bind_ok, e2] at ha; cases ha
    | panic => rw [e1, Out.bind_ok, e2] at ha; cases ha
    | ok y =>
      rw [e1, Out.bind_ok, e2, Out.bind_ok] at ha hb
      obtain ⟨c1, r1, n1, m1⟩ := C42_result _ _ _ ha
      obtain ⟨c2, r2, n2, m2⟩ := C42_result _ _ _ hb
      refine ⟨c1.trans c2.symm, ?_, ?_, ?_⟩
      · cases ht : a.atype <;> cases ht' : b.atype <;> try rfl
        · have := m2.2 (m1.1 ht); rw [ht'] at this; cases this
        · have := m1.2 (m2.1 ht'); rw [ht] at this; cases this
      · intro hpq
        unfold Anchor.fromGlif at ha hb
        split at ha
        · cases ha
        · split at hb
          · cases hb
          · cases ha; cases hb
            simp only [Level.maybeRound]
            have : p.level.isSfnt = q.level.isSfnt := by
              unfold OfFontFile at hpq
              unfold Level.isSfnt
              cases hp : p.level <;> cases hq : q.level <;> first | rfl | simp_all
            rw [this]
            exact ⟨rfl, rfl⟩
      · intro hp hq
        rw [(n2 hq).1, (n2 hq).2]
        exact r1 hp

theorem anchors_agree {p q : Pedantry} {es : List Element} {as bs : List Anchor}
    (ha : Out.mapM' (readAnchor p) es = .ok as) (hb : Out.mapM' (readAnchor q) es = .ok bs) :
    List.Forall₂ (AnchorReread p q) as bs := by
  induction es generalizing as bs with
  | nil => cases ha; cases hb; exact .nil
  | cons e es ih =>
    rw [Out.mapM'_cons] at ha hb
    cases e1 : readAnchor p e <;> rw [e1] at ha <;> try cases ha
    cases e2 : readAnchor q e <;> rw [e2] at hb <;> try cases hb
    rw [Out.bind_ok] at ha hb
    cases e3 : Out.mapM' (readAnchor p) es <;> rw [e3] at ha <;> try cases ha
    cases e4 : Out.mapM' (readAnchor q) es <;> rw [e4] at hb <;> try cases hb
    exact .cons (readAnchor_agree e1 e2) (ih e3 e4)

/-- **C80.** A document that is read with two pedantries is read to the same glyph, but for the anchors,
which have the same classes and types; their positions are the same if both levels are of font files
or neither is, and otherwise are rounded for the one that is. -/
theorem C80_same (mid : IOF → IOF → IOF) (pio : PlistIO D) (p q : Pedantry) (root : Element) (g h : Glif PD D)
    (hg : readGlif mid pio p root = .ok g) (hh : readGlif mid pio q root = .ok h) :
    g = { h with anchors := g.anchors } ∧ List.Forall₂ (AnchorReread p q) g.anchors h.anchors := by
  rw [readGlif_pre] at hg hh
  cases ep : readPre p root.name root.get (fun n => named n root.children) <;> rw [ep] at hg <;> try cases hg
  cases eq : readPre q root.name root.get (fun n => named n root.children) <;> rw [eq] at hh <;> try cases hh
  rename_i a b
  obtain ⟨a1, a2, a3, a4, a5, a6, a7⟩ := pre_parts ep
  obtain ⟨b1, b2, b3, b4, b5, b6, b7⟩ := pre_parts eq
  have w := readAdvance_agree a2 b2
  rw [a1] at b1; rw [a3] at b3; rw [a5] at b5; rw [a6] at b6; rw [a7] at b7
  have an := anchors_agree a4 b4
  obtain ⟨an1, an2, an3, an4, an5, an6, an7⟩ := a
  obtain ⟨bn1, bn2, bn3, bn4, bn5, bn6, bn7⟩ := b
  simp only [Option.some.injEq, Out.ok.injEq] at *
  subst b1 b3 b5 b6 b7 w
  rw [Out.bind_ok] at hg hh
  cases eo : outlineOfGlif (PD := PD) mid ((an7.map Prod.fst).getD []) <;> rw [eo] at hg hh <;> try cases hg
  cases hh
  exact ⟨rfl, an⟩

/-- **C80.** In particular the same glyph is read if both levels are of font files or neither is. -/
theorem C80_same_level (mid : IOF → IOF → IOF) (pio : PlistIO D) (p q : Pedantry) (hpq : OfFontFile p ↔ OfFontFile q)
    (root : Element) (g h : Glif PD D)
    (hg : readGlif mid pio p root = .ok g) (hh : readGlif mid pio q root = .ok h) : g = h := by
  obtain ⟨e, ha⟩ := C80_same mid pio p q root g h hg hh
  have : g.anchors = h.anchors := by
    generalize g.anchors = as at ha
    generalize h.anchors = bs at ha
    induction ha with
    | nil => rfl
    | @cons a b _ _ hab _ ih =>
      rw [ih]
      obtain ⟨c, t, s, _⟩ := hab
      obtain ⟨x, y⟩ := s hpq
      rcases a with ⟨_, _, _, _⟩
      rcases b with ⟨_, _, _, _⟩
      simp only at c t x y
      subst c t x y
      rfl
  rw [e, this]

/-- A document with a width. -/
def widthDoc (w : String) : Element :=
  ⟨"glyph", [("name", "a".toList), ("format", "2".toList)], [.elem "advance" [("width", w.toList)] []]⟩

/-- A document with an anchor. -/
def anchorDoc (x y : String) : Element :=
  ⟨"glyph", [("name", "a".toList), ("format", "2".toList)], [.elem "anchor" [("x", x.toList), ("y", y.toList)] []]⟩

theorem widthDoc_acceptable (p : Pedantry) : Acceptable p (widthDoc "0.5") ↔ ¬ Strictest p := by
  have hs : ¬ ∃ n, Signed 10 "0.5".toList n ∧ n < 2 ^ 64 := by
    rintro ⟨n, hn⟩
    have := (parseUnsigned_iff (b := 10) (by decide) (2 ^ 64) _ n).2 hn
    rw [show parseUnsigned 10 (2 ^ 64) "0.5".toList = none by decide +kernel] at this
    cases this
  obtain ⟨f, hf, hsub⟩ : ∃ f : F32, parseFloat b32 "0.5".toList = some f ∧ f.isSubnormal = false := by
    cases e : parseFloat b32 "0.5".toList with
    | none => exact absurd e (by decide +kernel)
    | some f =>
      refine ⟨f, rfl, ?_⟩
      have : (parseFloat b32 "0.5".toList).map Flt.isSubnormal = some false := by decide +kernel
      rw [e] at this
      simpa using this
  constructor
  · intro a
    obtain ⟨w, hw, ok⟩ := a.advance _ rfl
    cases hw
    exact (ok.resolve_left hs).1
  · intro hp
    refine ⟨rfl, rfl, ⟨_, rfl⟩, ?_, ?_, ?_, ?_, ?_, ?_⟩
    · intro e he
      cases he
      exact ⟨_, rfl, Or.inr ⟨hp, f, (C79_float b32_p2 _ _).1 hf, hsub⟩⟩
    all_goals (intro e h; cases h)

theorem anchorDoc_acceptable (p : Pedantry) : Acceptable p (anchorDoc "0.5" "0.5") ↔ p.mend = .always := by
  have hn : IsNumber "0.5".toList := (C79_accepted _).1 (by
    cases e : IOF.parse "0.5".toList with
    | none => exact absurd e (by decide +kernel)
    | some y => exact ⟨y, rfl⟩)
  have hi : ¬ ∃ i, IntText "0.5".toList i ∧ -(2 ^ 31) ≤ i ∧ i < 2 ^ 31 := by
    rintro ⟨i, hi⟩
    have := (parseI32_iff _ i).2 hi
    rw [show parseI32 "0.5".toList = none by decide +kernel] at this
    cases this
  constructor
  · intro a
    obtain ⟨_, _, h⟩ := a.anchor _ (List.mem_singleton.2 rfl)
    refine h.resolve_right ?_
    rintro ⟨⟨s, i, hs, hi'⟩, _⟩
    cases hs
    exact hi ⟨i, hi'⟩
  · intro hp
    refine ⟨rfl, rfl, ⟨_, rfl⟩, ?_, ?_, ?_, ?_, ?_, ?_⟩
    · intro e he; cases he
    · intro e he; cases he
    · intro e he
      rw [show named "anchor" (anchorDoc "0.5" "0.5").children = [⟨"anchor", [("x", "0.5".toList), ("y", "0.5".toList)], []⟩] from rfl, List.mem_singleton] at he
      subst he
      exact ⟨⟨_, rfl, hn⟩, ⟨_, rfl, hn⟩, Or.inl hp⟩
    all_goals (intro e h; cases h)

theorem read_iff (mid : IOF → IOF → IOF) (pio : PlistIO D) (ped : Pedantry) (root : Element) :
    (∃ g : Glif PD D, readGlif mid pio ped root = .ok g) ↔
      Acceptable ped root ∧ ¬ ∃ c ∈ contoursOf root, QuadraticInCubic c := by
  have h1 := C58_error_iff (PD := PD) mid pio ped root
  have h2 := C07_panics_iff (PD := PD) mid pio ped root
  cases e : readGlif (PD := PD) mid pio ped root with
  | ok g =>
    rw [e] at h1 h2
    simp only [reduceCtorEq, exists_false, false_iff, not_not] at h1 h2
    exact ⟨fun _ => ⟨h1, fun hc => h2 ⟨h1, hc⟩⟩, fun _ => ⟨g, rfl⟩⟩
  | err er =>
    rw [e] at h1
    have := h1.1 ⟨er, rfl⟩
    simp [this]
  | panic =>
    rw [e] at h2
    have := (h2.1 rfl).2
    simp [this]

example (mid : IOF → IOF → IOF) (pio : PlistIO D) : ∃ g h : Glif PD D,
    readGlif mid pio { mend := .always } (anchorDoc "0.5" "0.5") = .ok g ∧
    readGlif mid pio { level := .trueType, mend := .always } (anchorDoc "0.5" "0.5") = .ok h := by
  have h1 := fun ped hp => (read_iff (PD := PD) mid pio ped (anchorDoc "0.5" "0.5")).2 ⟨(anchorDoc_acceptable ped).2 hp, by rintro ⟨c, hc, _⟩; cases hc⟩
  obtain ⟨g, hg⟩ := h1 { mend := .always } rfl
  obtain ⟨h, hh⟩ := h1 { level := .trueType, mend := .always } rfl
  exact ⟨g, h, hg, hh⟩

/-- **C80.** One pedantry accepts all that another accepts exactly if it mends always in case the other
does, and is not one that mends nothing for font files unless the other is. -/
theorem C80_accepts (mid : IOF → IOF → IOF) (pio : PlistIO D) (p q : Pedantry) :
    (∀ root, (∃ g : Glif PD D, readGlif mid pio p root = .ok g) → ∃ g : Glif PD D, readGlif mid pio q root = .ok g) ↔
      (p.mend = .always → q.mend = .always) ∧ (Strictest q → Strictest p) := by
  simp only [read_iff]
  constructor
  · intro h
    constructor
    · intro hp
      have hd := h (anchorDoc "0.5" "0.5") ⟨(anchorDoc_acceptable p).2 hp, by rintro ⟨c, hc, _⟩; cases hc⟩
      exact (anchorDoc_acceptable q).1 hd.1
    · intro hq
      by_contra hp
      have hd := h (widthDoc "0.5") ⟨(widthDoc_acceptable p).2 hp, by rintro ⟨c, hc, _⟩; cases hc⟩
      exact (widthDoc_acceptable q).1 hd.1 hq
  · rintro ⟨h1, h2⟩ root ⟨a, hc⟩
    refine ⟨⟨a.tag, a.format, a.name, ?_, a.unicode, ?_, a.image, a.guideline, a.outline⟩, hc⟩
    · intro e he
      obtain ⟨w, hw, ok⟩ := a.advance e he
      refine ⟨w, hw, ok.imp_right fun ⟨hm, hf⟩ => ⟨?_, hf⟩⟩
      exact fun hq => hm (h2 hq)
    · intro e he
      obtain ⟨x, y, hi⟩ := a.anchor e he
      exact ⟨x, y, hi.imp_left h1⟩


/-! ## C81 -/

theorem roundsTo_whole {x y : F32} (h : RoundsTo x y) : Whole y := by
  unfold RoundsTo at h
  cases x with
  | nan => rw [h]; trivial
  | num s k hk =>
    rcases h with ⟨rfl, rfl⟩ | ⟨_, M, j, hj, _, rfl, hv, _⟩
    · exact Or.inl rfl
    · exact Or.inr ⟨M, hv⟩

theorem readAnchor_whole {p : Pedantry} (hp : OfFontFile p) {e : Element} {a : Anchor} (ha : readAnchor p e = .ok a) :
    Whole a.x ∧ Whole a.y := by
  unfold readAnchor at ha
  cases e1 : needIof e "x" "<anchor> missing x" "<anchor> x not integer/float" with
  | err => rw [e1] at ha; cases ha
  | panic => rw [e1] at ha; cases ha
  | ok x =>
    cases e2 : needIof e "y" "<anchor> missing y" "<anchor> y not integer/float" with
    | err => rw [e1, Out.bind_ok, e2] at ha; cases ha
    | panic => rw [e1, Out.bind_ok, e2] at ha; cases ha
    | ok y =>
      rw [e1, Out.bind_ok, e2, Out.bind_ok] at ha
      have := (C42_result _ _ _ ha).2.1 hp
      exact ⟨roundsTo_whole this.1, roundsTo_whole this.2⟩

/-- **C81, the part that holds.** With the level of a font file anchors are placed at whole numbers (or
are infinite or NaN).  Missing: points, handles, guidelines. -/
theorem C81_partial (mid : IOF → IOF → IOF) (pio : PlistIO D) (p : Pedantry) (hp : OfFontFile p) (root : Element)
    (g : Glif PD D) (hg : readGlif mid pio p root = .ok g) : ∀ a ∈ g.anchors, Whole a.x ∧ Whole a.y := by
  rw [readGlif_pre] at hg
  cases ep : readPre p root.name root.get (fun n => named n root.children) <;> rw [ep] at hg <;> try cases hg
  rename_i a
  have ha := (pre_parts ep).2.2.2.1
  rw [Out.bind_ok] at hg
  cases eo : outlineOfGlif (PD := PD) mid ((a.outline.map Prod.fst).getD []) <;> rw [eo] at hg <;> try cases hg
  intro b hb
  have hb' : b ∈ a.anchors := hb
  have : ∀ {es : List Element} {as : List Anchor}, Out.mapM' (readAnchor p) es = .ok as →
      ∀ b ∈ as, Whole b.x ∧ Whole b.y := by
    intro es
    induction es with
    | nil => intro as h b hb; cases h; cases hb
    | cons e es ih =>
      intro as h b hb
      rw [Out.mapM'_cons] at h
      cases e1 : readAnchor p e <;> rw [e1] at h <;> try cases h
      rw [Out.bind_ok] at h
      cases e3 : Out.mapM' (readAnchor p) es <;> rw [e3] at h <;> try cases h
      rcases List.mem_cons.1 hb with rfl | hb
      · exact readAnchor_whole hp e1
      · exact ih e3 b hb
  exact this ha b hb'

/-- **C81 is false of the code.** At every level and without any mending a point is read at half a unit. -/
theorem C81_false (mid : IOF → IOF → IOF) (pio : PlistIO D) (ped : Pedantry) :
    ∃ root, ∃ g : Glif PD D, readGlif mid pio ped root = .ok g ∧
      ∃ o, g.outline = some o ∧ ∃ c ∈ o, ∃ p ∈ c, ¬ Whole p.x := by
  obtain ⟨x, hx, hw⟩ : ∃ x : F32, IOF.parse "0.5".toList = some (.float x) ∧ ¬ Whole x := by
    refine ⟨.num false 0x3f000000 (by decide), by decide +kernel, ?_⟩
    rintro (h | ⟨M, h⟩)
    · exact absurd h (by decide)
    · rw [show b32.val 0x3f000000 = 2 ^ 148 by decide +kernel] at h
      omega
  have h0 : IOF.parse "0".toList = some (.int 0) := by decide +kernel
  let p1 : GlifPoint := { x := .float x, y := .int 0, smooth := false, name := none, ptype := .move }
  let p2 : GlifPoint := { x := .int 0, y := .int 0, smooth := false, name := none, ptype := .line }
  let ps := [Sample.pe "move" "0.5" "0", Sample.pe "line" "0" "0"]
  have hc : readContour ⟨"contour", [], ps⟩ = .ok [p1, p2] := by
    have e1 : readPoint ⟨"point", [("x", "0.5".toList), ("y", "0".toList), ("type", "move".toList)], []⟩ = .ok p1 := by
      have : ∀ o, o = some (IOF.float x) → (do
          let a ← Out.ofOption (.input "<point> x not float") o
          let b ← Out.ofOption (.input "<point> y not float") (IOF.parse "0".toList)
          .ok { x := a, y := b, smooth := false, name := none, ptype := .move } : R GlifPoint) = .ok p1 := by
        rintro _ rfl; rw [h0]; rfl
      exact this _ hx
    have e2 : readPoint ⟨"point", [("x", "0".toList), ("y", "0".toList), ("type", "line".toList)], []⟩ = .ok p2 := by
      have : ∀ o, o = some (IOF.int 0) → (do
          let a ← Out.ofOption (.input "<point> x not float") o
          let b ← Out.ofOption (.input "<point> y not float") o
          .ok { x := a, y := b, smooth := false, name := none, ptype := .line } : R GlifPoint) = .ok p2 := by
        rintro _ rfl; rfl
      exact this _ h0
    rw [readContour_eq]
    have : named "point" ps = [⟨"point", [("x", "0.5".toList), ("y", "0".toList), ("type", "move".toList)], []⟩,
      ⟨"point", [("x", "0".toList), ("y", "0".toList), ("type", "line".toList)], []⟩] := rfl
    simp only [this, Out.mapM'_cons, Out.mapM'_nil, e1, e2, Out.bind_ok]
  have ho : readOutline ⟨"outline", [], [.elem "contour" [] ps]⟩ = .ok ([[p1, p2]], []) := by
    rw [readOutline_eq]
    unfold readOutlineBy
    have e1 : named "contour" [Node.elem "contour" [] ps] = [⟨"contour", [], ps⟩] := rfl
    have e2 : named "component" [Node.elem "contour" [] ps] = [] := rfl
    simp only [e1, e2, Out.mapM'_cons, Out.mapM'_nil, hc, Out.bind_ok]
    rfl
  let pre : Option (List GlifContour × List GlifComponent) → Pre := fun o =>
    { name := "a".toList, width := none, unicode := [], anchors := [], images := [], guidelines := [], outline := o }
  have hpre : readPre ped (Sample.doc ps).name (Sample.doc ps).get (fun n => named n (Sample.doc ps).children) =
      .ok (pre (some ([[p1, p2]], []))) := by
    have : ∀ o, o = (.ok ([[p1, p2]], []) : R (List GlifContour × List GlifComponent)) →
        ((o >>= fun a => (.ok (some a) : R _)) >>= fun o' => (.ok (pre o') : R Pre)) = .ok (pre (some ([[p1, p2]], []))) := by
      rintro _ rfl; rfl
    exact this _ ho
  have hg : readGlif (PD := PD) mid pio ped (Sample.doc ps) = .ok (glifOf pio (fun n => named n (Sample.doc ps).children)
      (pre (some ([[p1, p2]], []))) [[{ x := x, y := IOF.toF32 (.int 0), ptype := .move }, { x := IOF.toF32 (.int 0), y := IOF.toF32 (.int 0), ptype := .line }]]) := by
    rw [readGlif_pre, hpre]
    rfl
  exact ⟨_, _, hg, _, rfl, _, List.mem_singleton.2 rfl, _, List.mem_cons_self, hw⟩

/-- The same document, at the strictest pedantry, is no accident: the levels differ only in anchors (C80). -/
example : Strictest { level := .trueType, mend := .never } ∧ OfFontFile { level := .trueType } := by
  simp [Strictest, OfFontFile]

end GP
