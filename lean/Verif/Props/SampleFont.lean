import Verif.Lemmas.Component
import Verif.Lemmas.Resave
import Verif.Props.Sample
/-! A font whose files are written by the library, for the examples next to the theorems. -/
open Fl
namespace GP
open Spec
variable {PD D : Type}

/-- The files of a font: glyphs written with `glifXml`. -/
def fontOf (pio : PlistIO D) (l : List (Path × Glif PD D)) : Files := fun f =>
  (l.lookup f).map fun g =>
    match glifXml pio g with
    | .ok e => some e
    | _ => none

theorem holds_fontOf {mid : IOF → IOF → IOF} {pio : PlistIO D} {l : List (Path × Glif PD D)} {f : Path}
    {g : Glif PD D} (hl : l.lookup f = some g) (hs : Saveable pio g) :
    Holds PD mid pio (fontOf pio l) f (saved g) := by
  have h := glif_trip mid pio g hs
  match he : glifXml pio g with
  | .err e => rw [he] at h; cases h
  | .panic => rw [he] at h; cases h
  | .ok e =>
    rw [he, Out.bind_ok] at h
    refine ⟨e, ?_, h⟩
    unfold fontOf
    rw [hl, Option.map_some, he]

theorem holds_fontOf_eq {mid : IOF → IOF → IOF} {pio : PlistIO D} {l : List (Path × Glif PD D)} {f : Path}
    {g g' : Glif PD D} (hl : l.lookup f = some g) (hs : Saveable pio g)
    (h : Holds PD mid pio (fontOf pio l) f g') : g' = saved g := by
  obtain ⟨e, he, hr⟩ := holds_fontOf (mid := mid) hl hs
  obtain ⟨e', he', hr'⟩ := h
  rw [he] at he'
  cases he'
  rw [hr] at hr'
  cases hr'
  rfl

theorem fontOf_finite (pio : PlistIO D) (l : List (Path × Glif PD D)) (f : Path) (h : fontOf pio l f ≠ none) :
    f ∈ l.map Prod.fst := by
  unfold fontOf at h
  match hl : l.lookup f with
  | none => rw [hl] at h; simp at h
  | some g =>
    clear h
    induction l with
    | nil => cases hl
    | cons a l ih =>
      obtain ⟨a1, a2⟩ := a
      rw [List.lookup_cons] at hl
      by_cases e : f = a1
      · subst e; simp
      · have : (f == a1) = false := by simpa using e
        rw [this] at hl
        exact List.mem_cons_of_mem _ (ih hl)

theorem lookup_mem {l : List (Path × Glif PD D)} {f : Path} {g : Glif PD D} (hl : l.lookup f = some g) : (f, g) ∈ l := by
  induction l with
  | nil => cases hl
  | cons a l ih =>
    obtain ⟨a1, a2⟩ := a
    rw [List.lookup_cons] at hl
    by_cases e : f = a1
    · subst e
      simp only [BEq.rfl] at hl
      cases hl
      exact List.mem_cons_self ..
    · have : (f == a1) = false := by simpa using e
      rw [this] at hl
      exact List.mem_cons_of_mem _ (ih hl)

/-- A font of glyphs that can be saved, in which every reference leads to a file of the font, is healthy. -/
theorem font_healthy {mid : IOF → IOF → IOF} {pio : PlistIO D} {l : List (Path × Glif PD D)}
    (hl : ∀ x ∈ l, Saveable pio x.2 ∧ ∀ d ∈ x.2.components.vec, (l.lookup (componentFile x.1 d.base)).isSome = true)
    {cs : List GlifComponent} (hcs : ∀ c ∈ cs, ∃ f, c.filename = some f ∧ (l.lookup f).isSome = true) :
    Healthy PD mid pio (fontOf pio l) cs := by
  have key : ∀ c ∈ cs, ∀ d, Reach PD mid pio (fontOf pio l) c d →
      ∃ f, d.filename = some f ∧ (l.lookup f).isSome = true := by
    intro c hc d hd
    induction hd with
    | refl => exact hcs c hc
    | tail _ h ih =>
      obtain ⟨f, g, hf, hg, d', hd', rfl⟩ := h
      obtain ⟨f', hf', hs⟩ := ih
      rw [hf] at hf'
      cases hf'
      obtain ⟨g0, hg0⟩ := Option.isSome_iff_exists.1 hs
      have hx := hl _ (lookup_mem hg0)
      rw [holds_fontOf_eq hg0 hx.1 hg] at hd'
      obtain ⟨d0, hd0, rfl⟩ := List.mem_map.1 hd'
      exact ⟨_, rfl, hx.2 d0 hd0⟩
  intro c hc d hd
  obtain ⟨f, hf, hs⟩ := key c hc d hd
  obtain ⟨g0, hg0⟩ := Option.isSome_iff_exists.1 hs
  exact ⟨f, saved g0, hf, holds_fontOf hg0 (hl _ (lookup_mem hg0)).1⟩

/-- A file in the sample font. -/
def sfile (n : String) : Path := { parts := ["glyphs".toList, n.toList ++ ".glif".toList] }

/-- A reference in the sample font. -/
def sref (n : String) (dx : Int) (h : i32ok dx = true := by decide) : GlifComponent :=
  { base := n.toList, filename := none, identifier := none,
    m := { xScale := .int 1, xyScale := .int 0, yxScale := .int 0, yScale := .int 1, xOffset := .int dx h, yOffset := .int 0 } }

/-- A glyph of the sample font. -/
def sglyph (D : Type) (n : String) (o : Option (Outline Unit)) (refs : List GlifComponent) : Glif Unit D :=
  { name := n.toList, outline := o, components := { vec := refs } }

/-- A square. -/
def square : Contour Unit :=
  [Sample.pt .line 0 0, Sample.pt .line 10 0, Sample.pt .line 10 10, Sample.pt .line 0 10]

theorem sglyph_saveable (pio : PlistIO D) (n : String) (refs : List GlifComponent) (o : Option (Outline Unit))
    (ho : o = none ∨ o = some [square]) : Saveable pio (sglyph D n o refs) := by
  refine ⟨?_, ?_, ?_, trivial⟩
  · intro o' h c hc
    simp only [sglyph] at h
    rcases ho with rfl | rfl
    · cases h
    · cases h
      rw [List.mem_singleton] at hc
      subst hc
      exact ⟨by simp [square], by simp [square, Cubic, Sample.pt]⟩
  · intro w hw; cases hw
  · intro a ha; cases ha

theorem square_resaved : resavedOutline [square] = [square] := by decide +kernel

/-- The glyph of the sample font as read back. -/
theorem saved_sglyph (n : String) (refs : List GlifComponent) (o : Option (Outline Unit))
    (ho : (o = none ∧ refs ≠ []) ∨ o = some [square]) :
    (saved (sglyph D n o refs)).outline.getD [] = o.getD [] ∧
    (saved (sglyph D n o refs)).components.vec = refs.map savedComponent := by
  refine ⟨?_, rfl⟩
  rcases ho with ⟨rfl, h⟩ | rfl
  · unfold saved sglyph
    simp [resavedOutline, h]
  · unfold saved sglyph
    simp [square_resaved]

theorem savedComponent_sref (n : String) (dx : Int) (h : i32ok dx = true) : savedComponent (sref n dx h) = sref n dx h := by
  unfold savedComponent sref Mat6.reread
  simp [IOF.reread_int]

/-- The sample font: `a` has a square, `b` refers to `a`, `c` refers to `b` and to `a`. -/
def sfont (D : Type) : List (Path × Glif Unit D) :=
  [(sfile "a", sglyph D "a" (some [square]) []), (sfile "b", sglyph D "b" none [sref "a" 20]),
   (sfile "c", sglyph D "c" none [sref "b" 5, sref "a" 100])]

theorem sfont_ok (pio : PlistIO D) : ∀ x ∈ sfont D, Saveable pio x.2 ∧
    ∀ d ∈ x.2.components.vec, ((sfont D).lookup (componentFile x.1 d.base)).isSome = true := by
  intro x hx
  simp only [sfont, List.mem_cons, List.not_mem_nil, or_false] at hx
  rcases hx with rfl | rfl | rfl
  · exact ⟨sglyph_saveable pio _ _ _ (Or.inr rfl), fun d hd => nomatch hd⟩
  · refine ⟨sglyph_saveable pio _ _ _ (Or.inl rfl), ?_⟩
    intro d hd
    cases List.mem_singleton.1 hd
    rfl
  · refine ⟨sglyph_saveable pio _ _ _ (Or.inl rfl), ?_⟩
    intro d hd
    simp only [sglyph, List.mem_cons, List.not_mem_nil, or_false] at hd
    rcases hd with rfl | rfl <;> rfl

/-- A font with a cycle: `p` refers to `q`, `q` refers to `p`. -/
def cfont (D : Type) : List (Path × Glif Unit D) :=
  [(sfile "p", sglyph D "p" none [sref "q" 1]), (sfile "q", sglyph D "q" (some [square]) [sref "p" 0])]

theorem cfont_ok (pio : PlistIO D) : ∀ x ∈ cfont D, Saveable pio x.2 ∧
    ∀ d ∈ x.2.components.vec, ((cfont D).lookup (componentFile x.1 d.base)).isSome = true := by
  intro x hx
  simp only [cfont, List.mem_cons, List.not_mem_nil, or_false] at hx
  rcases hx with rfl | rfl
  · refine ⟨sglyph_saveable pio _ _ _ (Or.inl rfl), ?_⟩
    intro d hd
    cases List.mem_singleton.1 hd
    rfl
  · refine ⟨sglyph_saveable pio _ _ _ (Or.inr rfl), ?_⟩
    intro d hd
    cases List.mem_singleton.1 hd
    rfl

/-- Resolving a reference to a glyph of such a font. -/
theorem font_resolves {mid : IOF → IOF → IOF} {pio : PlistIO D} {l : List (Path × Glif PD D)} {c : GlifComponent}
    {f : Path} {g : Glif PD D} (hc : c.filename = some f) (hl : l.lookup f = some g) (hs : Saveable pio g) :
    (c.toComponent mid pio (fontOf pio l) : R (Component PD D)) = .ok (resolved c f (saved g)) :=
  toComponent_ok.2 ⟨f, saved g, hc, holds_fontOf hl hs, rfl⟩

end GP
