import Verif.Spec.Chain
import Verif.Lemmas.Accuracy
import Verif.Props.Flatten
import Verif.Props.Matrix
import Mathlib.Tactic.Linarith
import Mathlib.Tactic.Ring
import Mathlib.Tactic.Positivity
/-!
# How exact flattening is (C106)
-/
open Fl
namespace GP
open Spec
variable {PD D : Type}

/-- One coordinate through one map. -/
theorem step_near {c d e : F64} {x y : F32} {p : ℚ × ℚ} {L B r : ℚ} (hc : c.isFinite = true) (hd : d.isFinite = true)
    (he : e.isFinite = true) (hL : |c.toRat| + |d.toRat| ≤ L) (hB : |c.toRat * p.1| + |d.toRat * p.2| + |e.toRat| ≤ B)
    (hx : Near x p.1 r) (hy : Near y p.2 r) (hr : B + L * r ≤ 2 ^ 126) :
    Near ((c * x.to64 + d * y.to64 + e).to32) (c.toRat * p.1 + d.toRat * p.2 + e.toRat) (nextError L B r) := by
  have hr0 : 0 ≤ r := (abs_nonneg _).trans hx.2
  have n1 : |c.toRat * (x.toRat - p.1)| ≤ |c.toRat| * r := by
    rw [abs_mul]; exact mul_le_mul_of_nonneg_left hx.2 (abs_nonneg _)
  have n2 : |d.toRat * (y.toRat - p.2)| ≤ |d.toRat| * r := by
    rw [abs_mul]; exact mul_le_mul_of_nonneg_left hy.2 (abs_nonneg _)
  have n3 : |c.toRat| * r + |d.toRat| * r ≤ L * r := by
    rw [← add_mul]; exact mul_le_mul_of_nonneg_right hL hr0
  have s : lineSize c d e x y ≤ B + L * r := by
    unfold lineSize
    have e1 : c.toRat * x.toRat = c.toRat * p.1 + c.toRat * (x.toRat - p.1) := by ring
    have e2 : d.toRat * y.toRat = d.toRat * p.2 + d.toRat * (y.toRat - p.2) := by ring
    have a1 := abs_add_le (c.toRat * p.1) (c.toRat * (x.toRat - p.1))
    have a2 := abs_add_le (d.toRat * p.2) (d.toRat * (y.toRat - p.2))
    rw [← e1] at a1
    rw [← e2] at a2
    linarith
  have w := line_within hc hd he hx.1 hy.1 (s.trans hr)
  refine ⟨w.1, ?_⟩
  have l : |line c d e x y| ≤ lineSize c d e x y := by
    unfold line lineSize
    have h1 := abs_add_le (c.toRat * x.toRat + d.toRat * y.toRat) e.toRat
    have h2 := abs_add_le (c.toRat * x.toRat) (d.toRat * y.toRat)
    linarith
  have t : |line c d e x y - (c.toRat * p.1 + d.toRat * p.2 + e.toRat)| ≤ L * r := by
    have e1 : line c d e x y - (c.toRat * p.1 + d.toRat * p.2 + e.toRat) =
        c.toRat * (x.toRat - p.1) + d.toRat * (y.toRat - p.2) := by unfold line; ring
    rw [e1]
    have := abs_add_le (c.toRat * (x.toRat - p.1)) (d.toRat * (y.toRat - p.2))
    linarith
  have tri := abs_sub_le ((c * x.to64 + d * y.to64 + e).to32).toRat (line c d e x y) (c.toRat * p.1 + d.toRat * p.2 + e.toRat)
  have w2 := w.2
  unfold lineError at w2
  unfold nextError
  have s0 : 0 ≤ lineSize c d e x y := (abs_nonneg _).trans l
  have f1 : |line c d e x y| / 2 ^ 24 + lineSize c d e x y / 2 ^ 50 ≤ (B + L * r) / 2 ^ 23 := by
    norm_num
    linarith
  linarith

/-- One more map, starting from a point that is already off. -/
theorem step_lands {A : Affine} {x y : F32} {p : ℚ × ℚ} {L B r : ℚ} (hA : StretchAtMost L A)
    (h1 : |A.a.toRat * p.1| + |A.c.toRat * p.2| + |A.e.toRat| ≤ B)
    (h2 : |A.b.toRat * p.1| + |A.d.toRat * p.2| + |A.f.toRat| ≤ B)
    (h : Lands x y p r) (hr : B + L * r ≤ 2 ^ 126) :
    Lands (image A x y).1 (image A x y).2 (exactImage A p) (nextError L B r) := by
  obtain ⟨⟨fa, fb, fc, fd, fe, ff⟩, l1, l2⟩ := hA
  exact ⟨step_near fa fc fe l1 h1 h.1 h.2 hr, step_near fb fd ff l2 h2 h.1 h.2 hr⟩

/-- `n` more errors on top of `r`. -/
def errorFrom (L B : ℚ) : ℕ → ℚ → ℚ
  | 0, r => r
  | n + 1, r => errorFrom L B n (nextError L B r)

theorem errorFrom_succ (L B : ℚ) (n : ℕ) (r : ℚ) : errorFrom L B (n + 1) r = nextError L B (errorFrom L B n r) := by
  induction n generalizing r with
  | zero => rfl
  | succ n ih =>
    show errorFrom L B (n + 1) (nextError L B r) = _
    rw [ih]
    rfl

theorem errorFrom_zero (L B : ℚ) (n : ℕ) : errorFrom L B n 0 = chainError L B n := by
  induction n with
  | zero => rfl
  | succ n ih => rw [errorFrom_succ, ih, chainError]

theorem nextError_mono {L B r s : ℚ} (hL : 0 ≤ L) (h : r ≤ s) : nextError L B r ≤ nextError L B s := by
  have := mul_le_mul_of_nonneg_left h hL
  unfold nextError
  have : (B + L * r) / 2 ^ 23 ≤ (B + L * s) / 2 ^ 23 := by
    apply div_le_div_of_nonneg_right _ (by positivity)
    linarith
  linarith

theorem chainError_nonneg {L B : ℚ} (hL : 0 ≤ L) (hB : 0 ≤ B) (n : ℕ) : 0 ≤ chainError L B n := by
  induction n with
  | zero => exact le_refl _
  | succ n ih =>
    have := mul_nonneg hL ih
    show 0 ≤ nextError L B _
    unfold nextError
    positivity

theorem chainError_step {L B : ℚ} (hL : 0 ≤ L) (hB : 0 ≤ B) (n : ℕ) : chainError L B n ≤ chainError L B (n + 1) := by
  induction n with
  | zero => exact chainError_nonneg hL hB 1
  | succ n ih => exact nextError_mono hL ih

theorem chainError_mono {L B : ℚ} (hL : 0 ≤ L) (hB : 0 ≤ B) : Monotone (chainError L B) :=
  monotone_nat_of_le_succ (chainError_step hL hB)

theorem images_land {As : List Affine} {x y : F32} {p : ℚ × ℚ} {L B r : ℚ} (hA : ∀ A ∈ As, StretchAtMost L A)
    (hw : WayAtMost B As p) (h : Lands x y p r) (hr : ∀ k < As.length, B + L * errorFrom L B k r ≤ 2 ^ 126) :
    Lands (images As (x, y)).1 (images As (x, y)).2 (exactChain As p) (errorFrom L B As.length r) := by
  induction As generalizing x y p r with
  | nil => exact h
  | cons A As ih =>
    obtain ⟨h1, h2, h3⟩ := hw
    have s := step_lands (hA A (by simp)) h1 h2 h (hr 0 (by simp))
    exact ih (fun A' h' => hA A' (by simp [h'])) h3 s (fun k hk => hr (k + 1) (by simp; omega))

theorem movedThrough_images {As : List Affine} {p q : Point PD} (h : MovedThrough As p q) :
    (q.x, q.y) = images As (p.x, p.y) ∧
      (∀ x y, p.a = .at x y → q.a = .at (images As (x, y)).1 (images As (x, y)).2) ∧ (p.a = .colocated → q.a = .colocated) ∧
      (∀ x y, p.b = .at x y → q.b = .at (images As (x, y)).1 (images As (x, y)).2) ∧ (p.b = .colocated → q.b = .colocated) := by
  induction As generalizing p with
  | nil =>
    cases h
    exact ⟨rfl, fun _ _ h => h, id, fun _ _ h => h, id⟩
  | cons A As ih =>
    obtain ⟨s, hs, ht⟩ := h
    obtain ⟨i1, i2, i3, i4, i5⟩ := ih ht
    refine ⟨?_, fun x y e => i2 _ _ (hs.a_at x y e), fun e => i3 (hs.a_co e), fun x y e => i4 _ _ (hs.b_at x y e),
      fun e => i5 (hs.b_co e)⟩
    rw [i1, hs.pos]
    rfl

/-- **C106.** A point that is moved through a chain of matrices, and each of its handles, lands where the exact
composition of the matrices puts it, within the error that accumulates in as many steps. -/
theorem C106_chain (As : List Affine) (p q : Point PD) (L B : ℚ) (hA : ∀ A ∈ As, StretchAtMost L A) (hB : 0 ≤ B)
    (hL : 0 ≤ L) (hp : TamePoint B As p) (hr : B + L * chainError L B As.length ≤ 2 ^ 126) (h : MovedThrough As p q) :
    PointLands As (chainError L B As.length) p q := by
  have room : ∀ k < As.length, B + L * errorFrom L B k 0 ≤ 2 ^ 126 := by
    intro k hk
    rw [errorFrom_zero]
    have := mul_le_mul_of_nonneg_left (chainError_mono hL hB hk.le) hL
    linarith
  have start : ∀ x y : F32, Tame B As x y →
      Lands (images As (x, y)).1 (images As (x, y)).2 (exactChain As (x.toRat, y.toRat)) (chainError L B As.length) := by
    intro x y ht
    have := images_land (p := (x.toRat, y.toRat)) (x := x) (y := y) (r := 0) hA ht.2.2
      ⟨⟨ht.1, by simp⟩, ⟨ht.2.1, by simp⟩⟩ room
    rwa [errorFrom_zero] at this
  obtain ⟨i1, i2, i3, i4, i5⟩ := movedThrough_images h
  obtain ⟨tp, ta, tb⟩ := hp
  have ex : q.x = (images As (p.x, p.y)).1 := by rw [← i1]
  have ey : q.y = (images As (p.x, p.y)).2 := by rw [← i1]
  refine ⟨?_, ?_, ?_⟩
  · rw [ex, ey]; exact start _ _ tp
  · cases ha : p.a with
    | colocated => rw [i3 ha]; trivial
    | «at» x y => rw [i2 x y ha]; rw [ha] at ta; exact start x y ta
  · cases hb : p.b with
    | colocated => rw [i5 hb]; trivial
    | «at» x y => rw [i4 x y hb]; rw [hb] at tb; exact start x y tb

/-- The accumulated error in closed form: a relative error of `2^-23` for each of the `n` steps, stretched by each of
them. -/
theorem C106_bound (L B : ℚ) (n : ℕ) (hL : 1 ≤ L) (hB : 0 ≤ B) :
    chainError L B n ≤ n * ((1 + 1 / 2 ^ 23) * L) ^ n * (B / 2 ^ 23 + 1 / 2 ^ 149) := by
  have hc : 0 ≤ B / 2 ^ 23 + 1 / 2 ^ 149 := by positivity
  have hK : 1 ≤ (1 + 1 / 2 ^ 23) * L := by
    have : L ≤ (1 + 1 / 2 ^ 23) * L := by
      rw [add_mul, one_mul]
      have : (0 : ℚ) ≤ 1 / 2 ^ 23 * L := by positivity
      linarith
    linarith
  induction n with
  | zero => simp [chainError]
  | succ n ih =>
    have e : chainError L B (n + 1) = (1 + 1 / 2 ^ 23) * L * chainError L B n + (B / 2 ^ 23 + 1 / 2 ^ 149) := by
      show nextError L B _ = _
      unfold nextError
      ring
    have m := mul_le_mul_of_nonneg_left ih (zero_le_one.trans hK)
    have p1 : 1 ≤ ((1 + 1 / 2 ^ 23) * L) ^ (n + 1) := one_le_pow₀ hK
    have q := mul_le_mul_of_nonneg_right p1 hc
    rw [e]
    push_cast
    generalize (1 + 1 / 2 ^ 23) * L = K at *
    calc K * chainError L B n + (B / 2 ^ 23 + 1 / 2 ^ 149)
        ≤ K * (n * K ^ n * (B / 2 ^ 23 + 1 / 2 ^ 149)) + 1 * (B / 2 ^ 23 + 1 / 2 ^ 149) := by linarith
      _ ≤ K * (n * K ^ n * (B / 2 ^ 23 + 1 / 2 ^ 149)) + K ^ (n + 1) * (B / 2 ^ 23 + 1 / 2 ^ 149) := by linarith
      _ = (n + 1) * K ^ (n + 1) * (B / 2 ^ 23 + 1 / 2 ^ 149) := by ring

theorem _root_.GP.Spec.Lands.mono {x y : F32} {v : ℚ × ℚ} {r s : ℚ} (h : Lands x y v r) (hrs : r ≤ s) : Lands x y v s :=
  ⟨⟨h.1.1, h.1.2.trans hrs⟩, ⟨h.2.1, h.2.2.trans hrs⟩⟩

theorem handleLands_mono {As : List Affine} {a b : Handle} {r s : ℚ} (h : HandleLands As r a b) (hrs : r ≤ s) :
    HandleLands As s a b := by
  cases a <;> cases b <;> first | exact h.mono hrs | exact h

theorem _root_.GP.Spec.PointLands.mono {As : List Affine} {p q : Point PD} {r s : ℚ} (h : PointLands As r p q) (hrs : r ≤ s) :
    PointLands As s p q :=
  ⟨h.1.mono hrs, handleLands_mono h.2.1 hrs, handleLands_mono h.2.2 hrs⟩

theorem visited_chain {ts : List (Tree (Component PD D))} {x : List Affine × Component PD D} (h : x ∈ ts.flatMap visited) :
    x.1.length ≤ 1 ∧ ∀ A ∈ x.1, ∃ y ∈ ts.flatMap (Spec.nodes (·.matrix) []), y.2.matrix = A := by
  obtain ⟨t, ht, hx⟩ := List.mem_flatMap.1 h
  have root : (([], t.data) : List Affine × Component PD D) ∈ ts.flatMap (Spec.nodes (·.matrix) []) :=
    List.mem_flatMap.2 ⟨t, ht, visited_mem t (List.mem_cons_self ..)⟩
  unfold visited at hx
  rcases List.mem_cons.1 hx with rfl | hx
  · exact ⟨by simp, by simp⟩
  · obtain ⟨c, -, rfl⟩ := List.mem_map.1 hx
    refine ⟨le_refl _, fun A hA => ⟨_, root, ?_⟩⟩
    exact (List.mem_singleton.1 hA).symm

/-- **C106** for flattening. The contours of the flattened glyph are, one for one and in order, the exact images of the
contours of the components and of their components under the composition of the matrices on the way to each, within the
accumulated error. -/
theorem C106_flattened {toC : GlifComponent → R (Component PD D)} {n : Nat} {g g' : Glif PD D}
    {rects : List ComponentRect} {ts : List (Tree (Component PD D))} {L B : ℚ}
    (h : g.flattened toC n = some (.ok (g', rects))) (ht : g.components.forest toC n = some (.ok ts))
    (hB : 0 ≤ B) (hL : 0 ≤ L)
    (hA : ∀ x ∈ ts.flatMap (lastFirst (·.matrix)), ∀ A ∈ x.2.matrix :: x.1, StretchAtMost L A)
    (hr : B + L * chainError L B 2 ≤ 2 ^ 126) :
    ∃ os, g'.outline = some os.flatten ∧ List.Forall₂ (NodeLands B (chainError L B)) (ts.flatMap (lastFirst (·.matrix))) os := by
  obtain ⟨o, ⟨os, h1, rfl⟩, ho⟩ := C22_order h ht
  refine ⟨os, ho, ?_⟩
  clear ho
  have hlen : ∀ x ∈ ts.flatMap (lastFirst (·.matrix)), x.1.length ≤ 1 := fun x hx => (visited_chain hx).1
  generalize ts.flatMap (lastFirst (·.matrix)) = ns at h1 hA hlen
  induction h1 with
  | nil => exact .nil
  | @cons x o' ns os hx _ ih =>
    refine .cons ?_ (ih (fun y hy => hA y (by simp [hy])) (fun y hy => hlen y (by simp [hy])))
    unfold DrawnNode at hx
    refine hx.imp fun c c' hc => hc.imp fun p q hpq htame => ?_
    refine C106_chain (x.2.matrix :: x.1) p q L B (hA x (by simp)) hB hL htame ?_ hpq
    have l1 := hlen x (by simp)
    have := mul_le_mul_of_nonneg_left (chainError_mono hL hB (show (x.2.matrix :: x.1).length ≤ 2 by rw [List.length_cons]; omega)) hL
    linarith

/-- In the sizes of fonts: if no matrix makes anything longer than twice and the numbers added up are at most `2^15`
together, every point of the flattened glyph is off by at most 1/50 unit, however deep the components go. -/
theorem C106_fonts {toC : GlifComponent → R (Component PD D)} {n : Nat} {g g' : Glif PD D}
    {rects : List ComponentRect} {ts : List (Tree (Component PD D))}
    (h : g.flattened toC n = some (.ok (g', rects))) (ht : g.components.forest toC n = some (.ok ts))
    (hA : ∀ x ∈ ts.flatMap (Spec.nodes (·.matrix) []), StretchAtMost 2 x.2.matrix) :
    ∃ os, g'.outline = some os.flatten ∧ List.Forall₂ (NodeLands (2 ^ 15) fun _ => 1 / 50) (ts.flatMap (lastFirst (·.matrix))) os := by
  have two : chainError 2 (2 ^ 15) 2 ≤ 1 / 50 := by
    simp only [chainError, nextError]
    norm_num
  have hA' : ∀ x ∈ ts.flatMap (lastFirst (·.matrix)), ∀ A ∈ x.2.matrix :: x.1, StretchAtMost 2 A := by
    intro x hx A hxA
    rcases List.mem_cons.1 hxA with rfl | hxA
    · obtain ⟨t, htm, hxt⟩ := List.mem_flatMap.1 hx
      exact hA x (List.mem_flatMap.2 ⟨t, htm, visited_mem t hxt⟩)
    · obtain ⟨y, hy, rfl⟩ := (visited_chain hx).2 A hxA
      exact hA y hy
  obtain ⟨os, h1, h2⟩ := C106_flattened (L := 2) (B := 2 ^ 15) h ht (by norm_num) (by norm_num) hA' (by norm_num at two ⊢; linarith)
  refine ⟨os, h1, ?_⟩
  clear h1 hA'
  have hlen : ∀ x ∈ ts.flatMap (lastFirst (·.matrix)), x.1.length ≤ 1 := fun x hx => (visited_chain hx).1
  generalize ts.flatMap (lastFirst (·.matrix)) = ns at h2 hlen
  induction h2 with
  | nil => exact .nil
  | @cons x o' ns os hx _ ih =>
    refine .cons (hx.imp fun c c' hc => hc.imp fun p q hpq htame => (hpq htame).mono ?_) (ih fun y hy => hlen y (by simp [hy]))
    have l1 := hlen x (by simp)
    exact (chainError_mono (by norm_num) (by norm_num) (show x.1.length + 1 ≤ 2 by omega)).trans two

/-! ### The hypotheses can be met -/

theorem sref_stretch (D : Type) (f : Path) (s : String) (dx : Int) (h : i32ok dx = true) (g : Glif Unit D) (p : Path) :
    StretchAtMost 2 (resolved (Spec.located f (sref s dx h)) p g).matrix := by
  have hd : dx.natAbs ≤ 2 ^ 31 := by
    simp only [i32ok, decide_eq_true_eq, Bool.and_eq_true] at h
    omega
  have v : ∀ i : Int, i.natAbs ≤ 2 ^ 31 → (Flt.ofInt b64 i).isFinite = true ∧ (Flt.ofInt b64 i).toRat = i := fun i hi =>
    val_int64 (i := i) (by omega)
  obtain ⟨f0, v0⟩ := v 0 (by decide)
  obtain ⟨f1, v1⟩ := v 1 (by decide)
  refine ⟨⟨f1, f0, f0, f1, (v dx hd).1, f0⟩, ?_, ?_⟩
  · show |(Flt.ofInt b64 1).toRat| + |(Flt.ofInt b64 0).toRat| ≤ 2
    rw [v0, v1]; norm_num
  · show |(Flt.ofInt b64 0).toRat| + |(Flt.ofInt b64 1).toRat| ≤ 2
    rw [v0, v1]; norm_num

/-- A glyph with components of components. -/
example (mid : IOF → IOF → IOF) (pio : PlistIO D) :
    ∃ g' rects ts, (userOf D ["b", "a"]).flattened (sresolve mid pio) 3 = some (.ok (g', rects)) ∧
      (userOf D ["b", "a"]).components.forest (sresolve mid pio) 3 = some (.ok ts) ∧
      ∀ x ∈ ts.flatMap (Spec.nodes (·.matrix) []), StretchAtMost 2 x.2.matrix := by
  refine ⟨_, _, _, user_flattened mid pio (sample_ba mid pio), sample_ba mid pio, ?_⟩
  intro x hx
  simp only [Spec.nodes, Spec.nodes.nodesL, treeB, treeA, List.flatMap_cons, List.flatMap_nil, List.append_nil,
    List.mem_append, List.mem_cons, List.not_mem_nil, or_false] at hx
  rcases hx with (rfl | rfl) | rfl
  all_goals exact sref_stretch ..

/-- Mirrored, slanted and moved. -/
def chainSample : Affine :=
  ⟨Flt.ofInt b64 (-1), Flt.ofInt b64 0, Flt.ofInt b64 2, Flt.ofInt b64 1, Flt.ofInt b64 20, Flt.ofInt b64 30⟩

/-- A point with a handle, moved by the same matrix twice. -/
example : (∀ A ∈ [chainSample, chainSample], StretchAtMost 3 A) ∧ TamePoint 200 [chainSample, chainSample] matrixSample ∧
    (200 : ℚ) + 3 * chainError 3 200 2 ≤ 2 ^ 126 ∧
    exactChain [chainSample, chainSample] (matrixSample.x.toRat, matrixSample.y.toRat) = (63, 55) := by
  have v : ∀ i : Int, i.natAbs ≤ 100 → (Flt.ofInt b64 i).toRat = i := fun i hi => (val_int64 (i := i) (by omega)).2
  have w : ∀ i : Int, i.natAbs ≤ 100 → (Flt.ofInt b32 i).toRat = i := fun i hi => (val_int32 (i := i) (by omega)).2
  have va : chainSample.a.toRat = -1 := by rw [chainSample, v _ (by decide)]; norm_num
  have vb : chainSample.b.toRat = 0 := by rw [chainSample, v _ (by decide)]; norm_num
  have vc : chainSample.c.toRat = 2 := by rw [chainSample, v _ (by decide)]; norm_num
  have vd : chainSample.d.toRat = 1 := by rw [chainSample, v _ (by decide)]; norm_num
  have ve : chainSample.e.toRat = 20 := by rw [chainSample, v _ (by decide)]; norm_num
  have vf : chainSample.f.toRat = 30 := by rw [chainSample, v _ (by decide)]; norm_num
  have wx : matrixSample.x.toRat = 3 := by rw [matrixSample, w _ (by decide)]; norm_num
  have wy : matrixSample.y.toRat = -5 := by rw [matrixSample, w _ (by decide)]; norm_num
  have st : StretchAtMost 3 chainSample := by
    refine ⟨⟨by decide +kernel, by decide +kernel, by decide +kernel, by decide +kernel, by decide +kernel, by decide +kernel⟩, ?_, ?_⟩
    · rw [va, vc]; norm_num
    · rw [vb, vd]; norm_num
  refine ⟨by simp [st], ⟨⟨by decide +kernel, by decide +kernel, ?_⟩, ⟨by decide +kernel, by decide +kernel, ?_⟩, trivial⟩, ?_, ?_⟩
  · simp only [WayAtMost, exactImage, wx, wy, va, vb, vc, vd, ve, vf]; norm_num
  · rw [w 7 (by decide), w 0 (by decide)]
    simp only [WayAtMost, exactImage, va, vb, vc, vd, ve, vf]; norm_num
  · simp only [chainError, nextError]; norm_num
  · simp only [exactChain, exactImage, wx, wy, va, vb, vc, vd, ve, vf]; norm_num

end GP
