import Verif.Spec.Component
/-!
# Lemmas on flattening
-/
open Fl
namespace GP
variable {PD D : Type}

theorem movedBy_image (m : Affine) (p : Point PD) : Spec.MovedBy (Spec.image m) p (p.applyMatrix m) := by
  refine ⟨rfl, ?_, ?_, ?_, ?_, rfl, rfl, rfl, rfl⟩ <;>
    intros <;> simp_all [Point.applyMatrix, Handle.applyMatrix, Spec.image, Affine.app32, Aff.app]

theorem movedThrough (ms : List Affine) (p : Point PD) : Spec.MovedThrough ms p (p.applyMatrices ms) := by
  induction ms generalizing p with
  | nil => rfl
  | cons m ms ih => exact ⟨p.applyMatrix m, movedBy_image m p, ih _⟩

theorem rectContour_snd (ms : List Affine) (i j : Nat) (r : Rect) (c : Contour PD) :
    (rectContour ms i j r c).2 = c.map (Point.applyMatrices ms) := by
  induction c generalizing j r with
  | nil => rfl
  | cons p c ih => simp [rectContour, ih]

theorem rectOutline_snd (ms : List Affine) (i : Nat) (r : Rect) (o : Outline PD) :
    (rectOutline ms i r o).2 = o.map (List.map (Point.applyMatrices ms)) := by
  induction o generalizing i r with
  | nil => rfl
  | cons c o ih => simp [rectOutline, ih, rectContour_snd]

/-- What a node contributes. -/
def contribution (n : List Affine × Component PD D) : Outline PD :=
  (n.2.glif.outline.getD []).map (List.map (Point.applyMatrices (n.2.matrix :: n.1)))

theorem drawn_contribution (n : List Affine × Component PD D) : Spec.DrawnNode n (contribution n) := by
  unfold Spec.DrawnNode contribution
  rw [List.forall₂_map_right_iff]
  refine List.forall₂_same.2 fun c _ => ?_
  rw [List.forall₂_map_right_iff]
  exact List.forall₂_same.2 fun p _ => movedThrough _ p

theorem applyComponentRect_snd (above : List Affine) (s : Rect × Outline PD) (c : Component PD D) :
    (applyComponentRect above s c).2 = s.2 ++ contribution (above, c) := by
  unfold applyComponentRect contribution
  cases c.glif.outline with
  | none => simp
  | some o => simp [rectOutline_snd]

/-- The nodes that `flattenTree` visits, in the order it visits them. -/
def visited (t : Tree (Component PD D)) : List (List Affine × Component PD D) :=
  ([], t.data) :: t.children.reverse.map fun child => ([t.data.matrix], child.data)

theorem flattenTree_snd (t : Tree (Component PD D)) (final : Outline PD) :
    (flattenTree t final).2 = final ++ (visited t).flatMap contribution := by
  unfold flattenTree visited
  have : ∀ (l : List (Tree (Component PD D))) (s : Rect × Outline PD),
      (l.foldl (fun s child => applyComponentRect [t.data.matrix] s child.data) s).2 =
        s.2 ++ (l.map fun child => (([t.data.matrix], child.data) : List Affine × Component PD D)).flatMap contribution := by
    intro l
    induction l with
    | nil => simp
    | cons a l ih =>
      intro s
      rw [List.foldl_cons, ih, applyComponentRect_snd]
      simp
  rw [this, applyComponentRect_snd]
  simp

theorem flattenForest_fst (ts : List (Tree (Component PD D))) :
    (flattenForest ts).1 = (ts.flatMap visited).flatMap contribution := by
  unfold flattenForest
  have : ∀ (ts : List (Tree (Component PD D))) (s : Outline PD × List ComponentRect),
      (ts.foldl (fun s t => ((flattenTree t s.1).2, s.2 ++ [{ rect := (flattenTree t s.1).1, name := t.data.glif.name }])) s).1 =
        s.1 ++ (ts.flatMap visited).flatMap contribution := by
    intro ts
    induction ts with
    | nil => simp
    | cons t ts ih =>
      intro s
      rw [List.foldl_cons, ih, flattenTree_snd]
      simp
  rw [this]
  simp

theorem drawnAll_contributions (ns : List (List Affine × Component PD D)) :
    Spec.DrawnNodes ns (ns.flatMap contribution) := by
  refine ⟨ns.map contribution, ?_, by rw [List.flatMap_def]⟩
  rw [List.forall₂_map_right_iff]
  exact List.forall₂_same.2 fun n _ => drawn_contribution n

/-- Outcome of `flattened`. -/
theorem flattened_ok {toC : GlifComponent → R (Component PD D)} {n : Nat} {g g' : Glif PD D}
    {rects : List ComponentRect} (h : g.flattened toC n = some (.ok (g', rects))) :
    ∃ ts, g.components.forest toC n = some (.ok ts) ∧ (flattenForest ts).2 = rects ∧
      g' = { g with outline := some (flattenForest ts).1, components := {} } := by
  unfold Glif.flattened at h
  match hf : g.components.forest toC n with
  | none => rw [hf] at h; cases h
  | some (.err e) => rw [hf] at h; cases h
  | some .panic => rw [hf] at h; cases h
  | some (.ok ts) =>
    rw [hf] at h
    cases h
    exact ⟨ts, rfl, rfl, rfl⟩

open Spec (twoLevels)

theorem nodesL_leaves {α : Type} (m : α → Affine) (above : List Affine) (ts : List (Tree α)) :
    Spec.nodes.nodesL m above (ts.map fun c => .node c.data []) = ts.map fun c => (above, c.data) := by
  induction ts with
  | nil => simp [Spec.nodes.nodesL]
  | cons t ts ih => simp [Spec.nodes.nodesL, Spec.nodes, ih]

theorem visited_perm (t : Tree (Component PD D)) :
    (visited t).Perm (Spec.nodes (·.matrix) [] (twoLevels t)) := by
  unfold visited twoLevels
  simp only [Spec.nodes, nodesL_leaves]
  exact ((List.reverse_perm _).map _).cons _

theorem nodesL_mem {α : Type} {m : α → Affine} {above : List Affine} {ts : List (Tree α)} {t : Tree α}
    (h : t ∈ ts) {n : List Affine × α} (hn : n ∈ Spec.nodes m above t) : n ∈ Spec.nodes.nodesL m above ts := by
  induction ts with
  | nil => cases h
  | cons t' ts ih =>
    simp only [Spec.nodes.nodesL, List.mem_append]
    rcases List.mem_cons.1 h with rfl | h
    · exact Or.inl hn
    · exact Or.inr (ih h)

theorem visited_mem (t : Tree (Component PD D)) {n : List Affine × Component PD D} (h : n ∈ visited t) :
    n ∈ Spec.nodes (·.matrix) [] t := by
  cases t with
  | node a ts =>
    unfold visited at h
    simp only [Spec.nodes]
    rcases List.mem_cons.1 h with rfl | h
    · exact List.mem_cons_self ..
    · obtain ⟨c, hc, rfl⟩ := List.mem_map.1 h
      refine List.mem_cons_of_mem _ (nodesL_mem (List.mem_reverse.1 hc) ?_)
      cases c with
      | node b bs => simp [Spec.nodes, Tree.data]

/-! ## Rectangles -/

/-- A float that is a number. -/
def Num {f : Fmt} (x : Flt f) : Prop := x.isNaN = false

theorem fle_refl {f : Fmt} {x : Flt f} (h : Num x) : Flt.fle x x = true := by
  cases x with
  | nan => simp [Num, Flt.isNaN] at h
  | num s k hk => simp [Flt.fle, Flt.feq]

theorem fle_total {f : Fmt} {x y : Flt f} (hx : Num x) (hy : Num y) (h : Flt.flt x y = false) : Flt.fle y x = true := by
  cases x with
  | nan => simp [Num, Flt.isNaN] at hx
  | num s k hk =>
    cases y with
    | nan => simp [Num, Flt.isNaN] at hy
    | num s' k' hk' =>
      cases s <;> cases s' <;> simp [Flt.fle, Flt.feq, Flt.flt] at h ⊢ <;> omega

theorem flt_fle {f : Fmt} {x y : Flt f} (h : Flt.flt x y = true) : Flt.fle x y = true := by simp [Flt.fle, h]

theorem fle_trans {f : Fmt} {x y z : Flt f} (h1 : Flt.fle x y = true) (h2 : Flt.fle y z = true) : Flt.fle x z = true := by
  cases x with
  | nan => simp [Flt.fle, Flt.feq, Flt.flt] at h1
  | num s k hk =>
    cases y with
    | nan => simp [Flt.fle, Flt.feq, Flt.flt] at h1
    | num s' k' hk' =>
      cases z with
      | nan => simp [Flt.fle, Flt.feq, Flt.flt] at h2
      | num s'' k'' hk'' =>
        cases s <;> cases s' <;> cases s'' <;> simp [Flt.fle, Flt.feq, Flt.flt] at h1 h2 ⊢ <;> omega

/-- All four sides are numbers. -/
def NumRect (r : Rect) : Prop := Num r.minx ∧ Num r.miny ∧ Num r.maxx ∧ Num r.maxy

/-- `r` contains what `r'` contains. -/
def Covers (r r' : Rect) : Prop :=
  Flt.fle r.minx r'.minx = true ∧ Flt.fle r.miny r'.miny = true ∧ Flt.fle r'.maxx r.maxx = true ∧
    Flt.fle r'.maxy r.maxy = true

theorem covers_refl {r : Rect} (h : NumRect r) : Covers r r :=
  ⟨fle_refl h.1, fle_refl h.2.1, fle_refl h.2.2.1, fle_refl h.2.2.2⟩

theorem covers_trans {a b c : Rect} (h1 : Covers a b) (h2 : Covers b c) : Covers a c :=
  ⟨fle_trans h1.1 h2.1, fle_trans h1.2.1 h2.2.1, fle_trans h2.2.2.1 h1.2.2.1, fle_trans h2.2.2.2 h1.2.2.2⟩

theorem inside_covers {a b : Rect} {p : Point PD} (h1 : Covers a b) (h2 : Spec.Inside b p) : Spec.Inside a p :=
  ⟨fle_trans h1.1 h2.1, fle_trans h2.2.1 h1.2.2.1, fle_trans h1.2.1 h2.2.2.1, fle_trans h2.2.2.2 h1.2.2.2⟩

theorem update_num {r : Rect} {p : Point PD} (b : Bool) (hr : NumRect r) (hx : Num p.x) (hy : Num p.y) :
    NumRect (r.update b p) := by
  obtain ⟨h1, h2, h3, h4⟩ := hr
  unfold Rect.update NumRect
  refine ⟨?_, ?_, ?_, ?_⟩ <;> dsimp only <;> split <;> assumption

theorem update_inside {r : Rect} {p : Point PD} (b : Bool) (hr : NumRect r) (hx : Num p.x) (hy : Num p.y) :
    Spec.Inside (r.update b p) p := by
  obtain ⟨h1, h2, h3, h4⟩ := hr
  unfold Rect.update Spec.Inside
  refine ⟨?_, ?_, ?_, ?_⟩ <;> dsimp only <;> split
  · exact fle_refl hx
  · next h => simp at h; exact fle_total hx h1 h.1
  · exact fle_refl hx
  · next h => simp at h; exact fle_total h3 hx h.1
  · exact fle_refl hy
  · next h => simp at h; exact fle_total hy h2 h.1
  · exact fle_refl hy
  · next h => simp at h; exact fle_total h4 hy h.1

theorem update_covers {r : Rect} {p : Point PD} (hr : NumRect r) :
    Covers (r.update false p) r := by
  obtain ⟨h1, h2, h3, h4⟩ := hr
  unfold Rect.update Covers
  simp only [Bool.or_false]
  refine ⟨?_, ?_, ?_, ?_⟩ <;> split
  all_goals first | (next h => exact flt_fle h) | (exact fle_refl ‹_›)

/-- Coordinates of all points are numbers. -/
def NumContour (c : Contour PD) : Prop := ∀ p ∈ c, Num p.x ∧ Num p.y

theorem rectContour_rest (ms : List Affine) (i j : Nat) (hij : i ≠ 0 ∨ j ≠ 0) (r : Rect) (c : Contour PD)
    (hr : NumRect r) (hc : NumContour c) :
    NumRect (rectContour ms i j r c).1 ∧ Covers (rectContour ms i j r c).1 r ∧
      ∀ p ∈ c, Spec.Inside (rectContour ms i j r c).1 p := by
  induction c generalizing j r with
  | nil => exact ⟨hr, covers_refl hr, fun p hp => nomatch hp⟩
  | cons p c ih =>
    have hp := hc p (List.mem_cons_self ..)
    have hb : (decide (i = 0) && decide (j = 0)) = false := by
      rcases hij with h | h <;> simp [h]
    have hu := update_num (p := p) false hr hp.1 hp.2
    obtain ⟨i1, i2, i3⟩ := ih (j + 1) (Or.inr (by omega)) (r.update false p) hu
      (fun q hq => hc q (List.mem_cons_of_mem _ hq))
    simp only [rectContour, hb]
    refine ⟨i1, covers_trans i2 (update_covers hr), ?_⟩
    intro q hq
    rcases List.mem_cons.1 hq with rfl | hq
    · exact inside_covers i2 (update_inside false hr hp.1 hp.2)
    · exact i3 q hq

theorem rectContour_first (ms : List Affine) (r : Rect) (c : Contour PD) (hr : NumRect r) (hc : NumContour c) :
    NumRect (rectContour ms 0 0 r c).1 ∧ ∀ p ∈ c, Spec.Inside (rectContour ms 0 0 r c).1 p := by
  cases c with
  | nil => exact ⟨hr, fun p hp => nomatch hp⟩
  | cons p c =>
    have hp := hc p (List.mem_cons_self ..)
    have hu := update_num (p := p) true hr hp.1 hp.2
    obtain ⟨i1, i2, i3⟩ := rectContour_rest ms 0 1 (Or.inr (by omega)) (r.update true p) c hu
      (fun q hq => hc q (List.mem_cons_of_mem _ hq))
    simp only [rectContour]
    refine ⟨i1, ?_⟩
    intro q hq
    rcases List.mem_cons.1 hq with rfl | hq
    · exact inside_covers i2 (update_inside true hr hp.1 hp.2)
    · exact i3 q hq

theorem rectOutline_rest (ms : List Affine) (i : Nat) (hi : i ≠ 0) (r : Rect) (o : Outline PD)
    (hr : NumRect r) (ho : ∀ c ∈ o, NumContour c) :
    Covers (rectOutline ms i r o).1 r ∧ ∀ c ∈ o, ∀ p ∈ c, Spec.Inside (rectOutline ms i r o).1 p := by
  induction o generalizing i r with
  | nil => exact ⟨covers_refl hr, fun p hp => nomatch hp⟩
  | cons c o ih =>
    obtain ⟨h1, h2, h3⟩ := rectContour_rest ms i 0 (Or.inl hi) r c hr (ho c (List.mem_cons_self ..))
    obtain ⟨i1, i2⟩ := ih (i + 1) (by omega) (rectContour ms i 0 r c).1 h1 (fun c hc => ho c (List.mem_cons_of_mem _ hc))
    simp only [rectOutline]
    refine ⟨covers_trans i1 h2, ?_⟩
    intro c' hc' p hp
    rcases List.mem_cons.1 hc' with rfl | hc'
    · exact inside_covers i1 (h3 p hp)
    · exact i2 c' hc' p hp

/-- The rectangle of one node contains the points of its glyph before any matrix is applied. -/
theorem rectOutline_inside (ms : List Affine) (r : Rect) (o : Outline PD)
    (hr : NumRect r) (ho : ∀ c ∈ o, NumContour c) :
    ∀ c ∈ o, ∀ p ∈ c, Spec.Inside (rectOutline ms 0 r o).1 p := by
  cases o with
  | nil => intro p hp; cases hp
  | cons c o =>
    obtain ⟨h1, h3⟩ := rectContour_first ms r c hr (ho c (List.mem_cons_self ..))
    obtain ⟨i1, i2⟩ := rectOutline_rest ms 1 (by omega) (rectContour ms 0 0 r c).1 o h1
      (fun c hc => ho c (List.mem_cons_of_mem _ hc))
    simp only [rectOutline]
    intro c' hc' p hp
    rcases List.mem_cons.1 hc' with rfl | hc'
    · exact inside_covers i1 (h3 p hp)
    · exact i2 c' hc' p hp

theorem feq_fle {f : Fmt} {x y : Flt f} (h : Flt.feq x y = true) : Flt.fle x y = true ∧ Flt.fle y x = true := by
  cases x with
  | nan => simp [Flt.feq] at h
  | num s k hk =>
    cases y with
    | nan => simp [Flt.feq] at h
    | num s' k' hk' =>
      cases s <;> cases s' <;> simp [Flt.fle, Flt.feq, Flt.flt] at h ⊢ <;> omega

end GP
