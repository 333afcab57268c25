import Verif.Lemmas.Faults
/-!
# Why a file is refused (C104)
-/
open Fl Fl.Text
namespace GP
variable {PD D : Type}
open Spec

theorem outlineOfGlif_no_err (mid : IOF → IOF → IOF) (gcs : List GlifContour) (x : GErr) :
    outlineOfGlif (PD := PD) mid gcs ≠ .err x := by
  have key : ∀ y, Out.mapM' (contourOfGlif (PD := PD) mid) gcs ≠ .err y := by
    induction gcs with
    | nil => simp [Out.mapM']
    | cons gc gcs ih =>
      intro y
      rw [Out.mapM'_cons]
      cases h : contourOfGlif (PD := PD) mid gc with
      | ok c =>
        rw [Out.bind_ok]
        cases h2 : Out.mapM' (contourOfGlif (PD := PD) mid) gcs with
        | ok cs => simp
        | err y => exact absurd h2 (ih y)
        | panic => simp
      | err y => exact absurd h (C07_contour_no_err mid gc y)
      | panic => simp
  unfold outlineOfGlif
  cases h : Out.mapM' (contourOfGlif (PD := PD) mid) gcs with
  | ok c => simp
  | err y => exact absurd h (key y)
  | panic => simp

/-- **C104.** A document is refused for the first fault it has in the order of reading, with the complaint that
belongs to this fault; one without a fault is not refused. -/
theorem C104_first (mid : IOF → IOF → IOF) (pio : PlistIO D) (ped : Pedantry) (root : Element) (x : GErr) :
    readGlif (PD := PD) mid pio ped root = .err x ↔
      (root.name ≠ "glyph" ∧ x = .input "Root element not <glyph>") ∨
      (root.name = "glyph" ∧ FirstFault (requirements ped root) x) := by
  rw [readGlif_pre]
  by_cases h : root.name = "glyph"
  · have hr : Runs _ _ := runs_readPre ped root h
    have : (readPre ped root.name root.get (fun n => named n root.children) >>= fun p =>
        outlineOfGlif mid ((p.outline.map Prod.fst).getD []) >>= fun o =>
          (.ok (glifOf pio (fun n => named n root.children) p o) : R (Glif PD D))) = .err x ↔
        readPre ped root.name root.get (fun n => named n root.children) = .err x := by
      cases hp : readPre ped root.name root.get (fun n => named n root.children) with
      | ok p =>
        rw [Out.bind_ok]
        cases ho : outlineOfGlif (PD := PD) mid ((p.outline.map Prod.fst).getD []) with
        | ok o => simp
        | err y => exact absurd ho (outlineOfGlif_no_err mid _ y)
        | panic => simp
      | err y => simp
      | panic => simp
    rw [this]
    rcases hr with ⟨⟨a, ha⟩, hn⟩ | ⟨y, hy, hf⟩
    · rw [ha]
      simp only [reduceCtorEq, false_iff]
      rintro (⟨h1, -⟩ | ⟨-, h1⟩)
      · exact h1 h
      · exact hn ⟨x, h1⟩
    · rw [hy]
      constructor
      · intro e; cases e; exact Or.inr ⟨h, hf⟩
      · rintro (⟨h1, -⟩ | ⟨-, h1⟩)
        · exact absurd h h1
        · rw [firstFault_unique hf h1]
  · unfold readPre
    rw [if_pos h]
    constructor
    · intro e; cases e; exact Or.inl ⟨h, rfl⟩
    · rintro (⟨-, rfl⟩ | ⟨h1, -⟩)
      · rfl
      · exact absurd h1 h

theorem firstFault_mem {l : List (Check × Element)} {x : GErr} (h : FirstFault l x) : ∃ p ∈ l, p.1.Fails p.2 x := by
  induction l with
  | nil => exact h.elim
  | cons p l ih =>
    rcases h with h | ⟨-, h⟩
    · exact ⟨p, List.mem_cons_self, h⟩
    · obtain ⟨q, hq, hf⟩ := ih h
      exact ⟨q, List.mem_cons_of_mem _ hq, hf⟩

/-- A complaint that says which attribute it is about, or one of the few that do not. -/
def SaysWhich (x : GErr) (k : String) : Prop :=
  Mentions x k ∨ x = .colorNotRGBA ∨ x = .pedanticXmlParse ∨ x = .input "<unicode> char conversion failed"

/-- The complaints of a check say which attribute they are about. -/
def Telling (c : Check) : Prop := (∀ x, c.missing = some x → SaysWhich x c.attr) ∧ SaysWhich c.bad c.attr

theorem telling_fails {c : Check} {e : Element} {x : GErr} (h : Telling c) (hf : c.Fails e x) : SaysWhich x c.attr := by
  rcases hf with ⟨-, h'⟩ | ⟨_, -, -, rfl⟩
  · exact h.1 x h'
  · exact h.2

theorem mentions {m w : String} (h : w ∈ wordsOf m) : SaysWhich (.input m) w := Or.inl ⟨m, rfl, h⟩

theorem telling_present {k m : String} (h : k ∈ wordsOf m) : Telling (present k m) :=
  ⟨fun x hx => by cases hx; exact mentions h, mentions h⟩

theorem telling_number {k m b : String} (h : k ∈ wordsOf m) (h2 : k ∈ wordsOf b) : Telling (number k m b) :=
  ⟨fun x hx => by cases hx; exact mentions h, mentions h2⟩

theorem telling_maybe {k : String} {g : Str → Prop} {b : GErr} (h : SaysWhich b k) : Telling (maybe k g b) :=
  ⟨fun _ hx => (nomatch hx), h⟩

theorem telling_matrix : ∀ c ∈ matrixChecks, Telling c := by
  simp only [matrixChecks, List.forall_mem_cons]
  exact ⟨telling_maybe (mentions (by decide)), telling_maybe (mentions (by decide)), telling_maybe (mentions (by decide)),
    telling_maybe (mentions (by decide)), telling_maybe (mentions (by decide)), telling_maybe (mentions (by decide)), by simp⟩

theorem telling_color : Telling colorCheck := telling_maybe (Or.inr (Or.inl rfl))

theorem mem_each {cs : List Check} {es : List Element} {p : Check × Element} (h : p ∈ each cs es) : p.1 ∈ cs ∧ p.2 ∈ es := by
  simp only [each, List.mem_flatMap, List.mem_map] at h
  obtain ⟨e, he, c, hc, rfl⟩ := h
  exact ⟨hc, he⟩

/-- **C104, what holds.**  The complaint is about a requirement that is not met, and, but for those about
colours, about anchors that are not integers and about numbers that are no characters, has the name of the
attribute among its words, unless the attribute is the `y` of a guideline. -/
theorem C104_partial (mid : IOF → IOF → IOF) (pio : PlistIO D) (ped : Pedantry) (root : Element) (x : GErr)
    (h : readGlif (PD := PD) mid pio ped root = .err x) (hr : root.name = "glyph") :
    ∃ p ∈ requirements ped root, p.1.Fails p.2 x ∧
      (Mentions x p.1.attr ∨ x = .colorNotRGBA ∨ x = .pedanticXmlParse ∨
        x = .input "<unicode> char conversion failed" ∨
        (p.1.attr = "y" ∧ p.2 ∈ named "guideline" root.children ∧ x = .input "<guideline> x not float")) := by
  rcases (C104_first mid pio ped root x).1 h with ⟨h1, -⟩ | ⟨-, h1⟩
  · exact absurd hr h1
  obtain ⟨p, hp, hf⟩ := firstFault_mem h1
  refine ⟨p, hp, hf, ?_⟩
  have done : Telling p.1 → Mentions x p.1.attr ∨ x = .colorNotRGBA ∨ x = .pedanticXmlParse ∨
      x = .input "<unicode> char conversion failed" ∨
      (p.1.attr = "y" ∧ p.2 ∈ named "guideline" root.children ∧ x = .input "<guideline> x not float") := fun ht => by
    rcases telling_fails ht hf with h | h | h | h
    · exact Or.inl h
    · exact Or.inr (Or.inl h)
    · exact Or.inr (Or.inr (Or.inl h))
    · exact Or.inr (Or.inr (Or.inr (Or.inl h)))
  simp only [requirements, List.mem_append] at hp
  rcases hp with ((((((hp | hp) | hp) | hp) | hp) | hp) | hp) | hp <;> obtain ⟨hc, he⟩ := mem_each hp
  · refine done ?_
    simp only [rootChecks, List.mem_cons, List.not_mem_nil, or_false] at hc
    rcases hc with hc | hc <;> rw [hc]
    · exact ⟨fun y hy => by cases hy; exact mentions (by decide), mentions (by decide)⟩
    · exact telling_present (by decide)
  · refine done ?_
    simp only [advanceChecks, List.mem_cons, List.not_mem_nil, or_false] at hc
    rcases hc with hc | hc <;> rw [hc]
    · exact ⟨fun y hy => by cases hy; exact mentions (by decide), mentions (by decide)⟩
    · exact telling_maybe (mentions (by decide))
  · refine done ?_
    simp only [unicodeChecks, List.mem_cons, List.not_mem_nil, or_false] at hc
    rcases hc with hc | hc <;> rw [hc]
    · exact ⟨fun y hy => by cases hy; exact mentions (by decide), mentions (by decide)⟩
    · exact telling_maybe (Or.inr (Or.inr (Or.inr rfl)))
  · refine done ?_
    simp only [anchorChecks, List.mem_cons, List.not_mem_nil, or_false] at hc
    rcases hc with hc | hc | hc | hc <;> rw [hc]
    · exact telling_number (by decide) (by decide)
    · exact telling_number (by decide) (by decide)
    · exact telling_maybe (Or.inr (Or.inr (Or.inl rfl)))
    · exact telling_maybe (Or.inr (Or.inr (Or.inl rfl)))
  · refine done ?_
    simp only [imageChecks, List.mem_cons, List.mem_append, List.not_mem_nil, or_false] at hc
    rcases hc with hc | hc | hc
    · rw [hc]; exact telling_present (by decide)
    · exact telling_matrix _ hc
    · rw [hc]; exact telling_color
  · simp only [guidelineChecks, List.mem_cons, List.not_mem_nil, or_false] at hc
    rcases hc with hc | hc | hc | hc
    · exact done (by rw [hc]; exact telling_number (by decide) (by decide))
    · rw [hc] at hf ⊢
      rcases hf with ⟨-, hf⟩ | ⟨_, -, -, hf⟩
      · cases hf
        exact Or.inl ⟨_, rfl, by decide⟩
      · exact Or.inr (Or.inr (Or.inr (Or.inr ⟨rfl, he, hf⟩)))
    · exact done (by rw [hc]; exact telling_number (by decide) (by decide))
    · exact done (by rw [hc]; exact telling_color)
  · refine done ?_
    simp only [pointChecks, List.mem_cons, List.not_mem_nil, or_false] at hc
    rcases hc with hc | hc <;> rw [hc]
    · exact telling_number (by decide) (by decide)
    · exact telling_number (by decide) (by decide)
  · refine done ?_
    simp only [componentChecks, List.mem_append, List.mem_cons, List.not_mem_nil, or_false] at hc
    rcases hc with hc | hc
    · exact telling_matrix _ hc
    · rw [hc]; exact telling_present (by decide)

namespace Sample
/-- A document with a guideline. -/
def guided (x y : String) : Element :=
  { name := "glyph", attrs := [("name", "a".toList), ("format", "2".toList)]
    children := [.elem "guideline" [("x", x.toList), ("y", y.toList), ("angle", "0".toList)] []] }
end Sample

theorem isNumber_zero : IsNumber "0".toList := (C79_accepted _).1 ⟨.int 0, by decide +kernel⟩

theorem not_isNumber_top : ¬ IsNumber "top".toList := fun h => by
  obtain ⟨x, hx⟩ := (C79_accepted _).2 h
  exact absurd hx (by rw [show IOF.parse "top".toList = none by decide +kernel]; simp)

/-- C104 as stated is false: where only the `y` of a guideline is wrong, the complaint is about its `x`. -/
theorem C104_false (mid : IOF → IOF → IOF) (pio : PlistIO D) (ped : Pedantry) :
    ∃ root, (∀ p ∈ requirements ped root, (∃ x, p.1.Fails p.2 x) → p.1.attr = "y") ∧
      readGlif (PD := PD) mid pio ped root = .err (.input "<guideline> x not float") := by
  have req : requirements ped (Sample.guided "0" "top") =
      each rootChecks [Sample.guided "0" "top"] ++
      each guidelineChecks [⟨"guideline", [("x", "0".toList), ("y", "top".toList), ("angle", "0".toList)], []⟩] := rfl
  have hx : ∀ y, ¬ (number "x" "<guideline> missing x" "<guideline> x not float").Fails
      ⟨"guideline", [("x", "0".toList), ("y", "top".toList), ("angle", "0".toList)], []⟩ y := by
    rintro y (⟨h, -⟩ | ⟨s, h, hn, -⟩)
    · cases h
    · cases h; exact hn isNumber_zero
  have h1 : ∀ y, ¬ (⟨"format", some (.input "no format in <glyph>"), (· = "2".toList), .input "<glyph> format not 2"⟩ : Check).Fails
      (Sample.guided "0" "top") y := by
    rintro y (⟨h, -⟩ | ⟨s, h, hn, -⟩)
    · cases h
    · cases h; exact hn rfl
  have h2 : ∀ y, ¬ (present "name" "<glyph> has no name").Fails (Sample.guided "0" "top") y := by
    rintro y (⟨h, -⟩ | ⟨s, h, hn, -⟩)
    · cases h
    · exact hn trivial
  refine ⟨Sample.guided "0" "top", ?_, ?_⟩
  · rw [req]
    rintro p hp ⟨y, hy⟩
    rw [List.mem_append] at hp
    rcases hp with hp | hp
    · simp only [each, rootChecks, List.flatMap_cons, List.flatMap_nil, List.append_nil, List.map_cons, List.map_nil,
        List.mem_cons, List.not_mem_nil, or_false] at hp
      rcases hp with rfl | rfl
      · exact absurd hy (h1 y)
      · exact absurd hy (h2 y)
    · simp only [each, guidelineChecks, List.flatMap_cons, List.flatMap_nil, List.append_nil, List.map_cons, List.map_nil,
        List.mem_cons, List.not_mem_nil, or_false] at hp
      rcases hp with rfl | rfl | rfl | rfl
      · exact absurd hy (hx y)
      · rfl
      · rcases hy with ⟨h, -⟩ | ⟨s, h, hn, -⟩
        · cases h
        · cases h; exact absurd isNumber_zero hn
      · rcases hy with ⟨-, h⟩ | ⟨s, h, hn, -⟩
        · cases h
        · cases h
  · rw [C104_first]
    refine Or.inr ⟨rfl, ?_⟩
    rw [req]
    exact Or.inr ⟨fun ⟨y, h⟩ => h1 y h, Or.inr ⟨fun ⟨y, h⟩ => h2 y h, Or.inr ⟨fun ⟨y, h⟩ => hx y h,
      Or.inl (Or.inr ⟨_, rfl, not_isNumber_top, rfl⟩)⟩⟩⟩

/-- A document refused for a reason that is named. -/
example (mid : IOF → IOF → IOF) (pio : PlistIO D) (ped : Pedantry) :
    readGlif (PD := PD) mid pio ped { name := "glyph", attrs := [("format", "2".toList)], children := [] } =
      .err (.input "<glyph> has no name") := rfl

end GP
