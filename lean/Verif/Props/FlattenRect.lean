import Verif.Props.Flatten
/-!
# C26: what the rectangle of a component is
-/
open Fl
namespace GP
variable {PD D : Type}

/-- Each side goes through one of the points. -/
def Attained (r : Rect) (ps : List (Point PD)) : Prop :=
  (∃ p ∈ ps, p.x = r.minx) ∧ (∃ p ∈ ps, p.x = r.maxx) ∧ (∃ p ∈ ps, p.y = r.miny) ∧ ∃ p ∈ ps, p.y = r.maxy

theorem attained_mono {r : Rect} {ps qs : List (Point PD)} (h : Attained r ps) (hs : ∀ p ∈ ps, p ∈ qs) : Attained r qs := by
  obtain ⟨⟨a, ha, ha'⟩, ⟨b, hb, hb'⟩, ⟨c, hc, hc'⟩, ⟨d, hd, hd'⟩⟩ := h
  exact ⟨⟨a, hs a ha, ha'⟩, ⟨b, hs b hb, hb'⟩, ⟨c, hs c hc, hc'⟩, ⟨d, hs d hd, hd'⟩⟩

theorem update_attained (r : Rect) (ps : List (Point PD)) (p : Point PD) (h : Attained r ps) :
    Attained (r.update false p) (ps ++ [p]) := by
  obtain ⟨⟨a, ha, ha'⟩, ⟨b, hb, hb'⟩, ⟨c, hc, hc'⟩, ⟨d, hd, hd'⟩⟩ := h
  unfold Rect.update Attained
  simp only [Bool.or_false]
  refine ⟨?_, ?_, ?_, ?_⟩ <;> split
  · exact ⟨p, by simp, rfl⟩
  · exact ⟨a, by simp [ha], ha'⟩
  · exact ⟨p, by simp, rfl⟩
  · exact ⟨b, by simp [hb], hb'⟩
  · exact ⟨p, by simp, rfl⟩
  · exact ⟨c, by simp [hc], hc'⟩
  · exact ⟨p, by simp, rfl⟩
  · exact ⟨d, by simp [hd], hd'⟩

theorem update_first (r : Rect) (p : Point PD) : Attained (r.update true p) [p] := by
  unfold Rect.update Attained
  simp

theorem rectContour_attained (ms : List Affine) (i : Nat) (c : Contour PD) : ∀ (j : Nat) (_ : i ≠ 0 ∨ j ≠ 0) (r : Rect) (ps : List (Point PD)),
    Attained r ps → Attained (rectContour ms i j r c).1 (ps ++ c) := by
  induction c with
  | nil => intro j _ r ps h; simpa [rectContour] using h
  | cons p c ih =>
    intro j hij r ps h
    have hb : (decide (i = 0) && decide (j = 0)) = false := by rcases hij with h | h <;> simp [h]
    have := ih (j + 1) (Or.inr (by omega)) (r.update false p) (ps ++ [p]) (update_attained r ps p h)
    simp only [rectContour, hb]
    simpa using this

theorem rectOutline_attained (ms : List Affine) (o : Outline PD) : ∀ (i : Nat) (_ : i ≠ 0) (r : Rect) (ps : List (Point PD)),
    Attained r ps → Attained (rectOutline ms i r o).1 (ps ++ o.flatten) := by
  induction o with
  | nil => intro i _ r ps h; simpa [rectOutline] using h
  | cons c o ih =>
    intro i hi r ps h
    have := ih (i + 1) (by omega) (rectContour ms i 0 r c).1 (ps ++ c) (rectContour_attained ms i c 0 (Or.inl hi) r ps h)
    simp only [rectOutline]
    simpa using this

/-- The rectangle of one node that has contours, whatever it was before. -/
theorem rectOutline_bounds (ms : List Affine) (r : Rect) (o : Outline PD) (hr : NumRect r) (ho : o ≠ [])
    (hc : ∀ c ∈ o, c ≠ [] ∧ NumContour c) : Spec.Bounds (rectOutline ms 0 r o).1 o.flatten := by
  have hin := rectOutline_inside ms r o hr fun c h => (hc c h).2
  have hat : Attained (rectOutline ms 0 r o).1 o.flatten := by
    match o, ho with
    | c :: o, _ =>
      match c, (hc c (List.mem_cons_self ..)).1 with
      | p :: c, _ =>
        have h1 := rectContour_attained ms 0 c 1 (Or.inr (by omega)) (r.update true p) [p] (update_first r p)
        have h2 := rectOutline_attained ms o 1 (by omega) (rectContour ms 0 0 r (p :: c)).1 (p :: c) (by simpa [rectContour] using h1)
        simp only [rectOutline]
        simpa using h2
  refine ⟨fun p hp => ?_, hat.1, hat.2.1, hat.2.2.1, hat.2.2.2⟩
  obtain ⟨c, hc, hp⟩ := List.mem_flatten.1 hp
  exact hin c hc p hp

theorem attained_num {r : Rect} {o : Outline PD} (h : Attained r o.flatten) (ho : ∀ c ∈ o, NumContour c) : NumRect r := by
  have hp : ∀ p ∈ o.flatten, Num p.x ∧ Num p.y := by
    intro p hp
    obtain ⟨c, hc, hp⟩ := List.mem_flatten.1 hp
    exact ho c hc p hp
  obtain ⟨⟨a, ha, ha'⟩, ⟨b, hb, hb'⟩, ⟨c, hc, hc'⟩, ⟨d, hd, hd'⟩⟩ := h
  exact ⟨ha' ▸ (hp a ha).1, hc' ▸ (hp c hc).2, hb' ▸ (hp b hb).1, hd' ▸ (hp d hd).2⟩

/-- What the loop over nodes makes of the rectangle: it is that of the last node with contours. -/
theorem rects_last (above : Component PD D → List Affine) (ds : List (Component PD D))
    (hn : ∀ d ∈ ds, ∀ c ∈ d.glif.outline.getD [], c ≠ [] ∧ NumContour c) : ∀ (s : Rect × Outline PD), NumRect s.1 →
    NumRect (ds.foldl (fun s d => applyComponentRect (above d) s d) s).1 ∧
    ((∀ d ∈ ds, d.glif.outline.getD [] = []) → (ds.foldl (fun s d => applyComponentRect (above d) s d) s).1 = s.1) ∧
    ∀ pre d post, ds = pre ++ d :: post → d.glif.outline.getD [] ≠ [] → (∀ e ∈ post, e.glif.outline.getD [] = []) →
      Spec.Bounds (ds.foldl (fun s d => applyComponentRect (above d) s d) s).1 (d.glif.outline.getD []).flatten := by
  induction ds with
  | nil => exact fun s hs => ⟨hs, fun _ => rfl, fun pre d post h => by simp at h⟩
  | cons e ds ih =>
    intro s hs
    have he := hn e (List.mem_cons_self ..)
    have key : NumRect (applyComponentRect (above e) s e).1 ∧
        (e.glif.outline.getD [] = [] → (applyComponentRect (above e) s e).1 = s.1) ∧
        (e.glif.outline.getD [] ≠ [] → Spec.Bounds (applyComponentRect (above e) s e).1 (e.glif.outline.getD []).flatten) := by
      unfold applyComponentRect
      cases ho : e.glif.outline with
      | none => exact ⟨hs, fun _ => rfl, fun h => absurd rfl h⟩
      | some o =>
        rw [ho] at he
        simp only [Option.getD_some] at he ⊢
        refine ⟨?_, fun h => by rw [h]; rfl, fun h => rectOutline_bounds _ _ o hs h he⟩
        by_cases h : o = []
        · rw [h]; exact hs
        · have hb := rectOutline_bounds (e.matrix :: above e) s.1 o hs h he
          exact attained_num ⟨hb.left, hb.right, hb.bottom, hb.top⟩ fun c hc => (he c hc).2
    obtain ⟨k1, k2, k3⟩ := key
    obtain ⟨i1, i2, i3⟩ := ih (fun d hd => hn d (List.mem_cons_of_mem _ hd)) (applyComponentRect (above e) s e) k1
    rw [List.foldl_cons]
    refine ⟨i1, fun h => ?_, fun pre d post h hd hpost => ?_⟩
    · rw [i2 fun d hd => h d (List.mem_cons_of_mem _ hd), k2 (h e (List.mem_cons_self ..))]
    · cases pre with
      | nil =>
        simp only [List.nil_append, List.cons.injEq] at h
        obtain ⟨rfl, rfl⟩ := h
        rw [i2 hpost]
        exact k3 hd
      | cons a pre =>
        simp only [List.cons_append, List.cons.injEq] at h
        exact i3 pre d post h.2 hd hpost

/-- **C26**, what the rectangle of a component is: the smallest one around the points, as they are in its
file, of a single node: the first of the component's own components that has contours, or the component if
none of them has.  It is empty at the origin if there are no contours.  (Contours with points that are numbers.) -/
theorem C26_rectangle {toC : GlifComponent → R (Component PD D)} {n : Nat} {g g' : Glif PD D}
    {rects : List ComponentRect} {ts : List (Tree (Component PD D))}
    (h : g.flattened toC n = some (.ok (g', rects))) (ht : g.components.forest toC n = some (.ok ts))
    (i : Nat) (t : Tree (Component PD D)) (r : ComponentRect) (hi : ts[i]? = some t) (hr : rects[i]? = some r)
    (hn : ∀ d ∈ t.data :: t.children.map Tree.data, ∀ c ∈ d.glif.outline.getD [], c ≠ [] ∧ ∀ p ∈ c, p.x.isNaN = false ∧ p.y.isNaN = false) :
    (∀ pre d post, t.children.map Tree.data = pre ++ d :: post → (∀ e ∈ pre, e.glif.outline.getD [] = []) → d.glif.outline.getD [] ≠ [] →
      Spec.Bounds r.rect (d.glif.outline.getD []).flatten) ∧
    ((∀ d ∈ t.children.map Tree.data, d.glif.outline.getD [] = []) →
      (t.data.glif.outline.getD [] ≠ [] → Spec.Bounds r.rect (t.data.glif.outline.getD []).flatten) ∧
      (t.data.glif.outline.getD [] = [] → r.rect = {})) := by
  obtain ⟨ts', h1, rfl, -⟩ := flattened_ok h
  rw [ht] at h1
  cases h1
  rw [flattenForest_snd, List.getElem?_map, hi, Option.map_some, Option.some.injEq] at hr
  subst hr
  have hn' : ∀ d ∈ t.data :: t.children.map Tree.data, ∀ c ∈ d.glif.outline.getD [], c ≠ [] ∧ NumContour c := hn
  have hroot := rects_last (fun _ : Component PD D => []) [t.data] (fun d hd => hn' d (by simp at hd; simp [hd])) ({}, []) ⟨rfl, rfl, rfl, rfl⟩
  obtain ⟨r1, r2, r3⟩ := hroot
  simp only [List.foldl_cons, List.foldl_nil] at r1 r2 r3
  have hkids := rects_last (fun _ : Component PD D => [t.data.matrix]) (t.children.map Tree.data).reverse
    (fun d hd => hn' d (List.mem_cons_of_mem _ (List.mem_reverse.1 hd))) _ r1
  have hf : (flattenTree t []).1 = ((t.children.map Tree.data).reverse.foldl (fun s d => applyComponentRect [t.data.matrix] s d)
      (applyComponentRect [] ({}, []) t.data)).1 := by
    unfold flattenTree
    rw [← List.map_reverse, List.foldl_map]
  rw [hf]
  obtain ⟨k1, k2, k3⟩ := hkids
  refine ⟨fun pre d post hpd hpre hd => ?_, fun hk => ⟨fun hd => ?_, fun hd => ?_⟩⟩
  · refine k3 post.reverse d pre.reverse (by rw [hpd]; simp) hd fun e he => hpre e (List.mem_reverse.1 he)
  · rw [k2 fun e he => hk e (List.mem_reverse.1 he)]
    exact r3 [] t.data [] rfl hd (fun e he => nomatch he)
  · rw [k2 fun e he => hk e (List.mem_reverse.1 he)]
    exact r2 fun e he => by cases List.mem_singleton.1 he; exact hd

section samples3
variable (mid : IOF → IOF → IOF) (pio : PlistIO D)

/-- A glyph of the sample font that meets the hypotheses, with contours. -/
example : ∃ g' r t, (movedA D 20 (by decide)).flattened (sresolve mid pio) 1 = some (.ok (g', [r])) ∧
    (movedA D 20 (by decide)).components.forest (sresolve mid pio) 1 = some (.ok [t]) ∧
    (∀ d ∈ t.data :: t.children.map Tree.data, ∀ c ∈ d.glif.outline.getD [], c ≠ [] ∧ ∀ p ∈ c, p.x.isNaN = false ∧ p.y.isNaN = false) ∧
    t.data.glif.outline.getD [] ≠ [] := by
  refine ⟨_, _, _, movedA_flattened mid pio 20 (by decide), movedA_forest mid pio 20 (by decide), ?_, ?_⟩
  · intro d hd c hc
    simp only [treeA, Tree.data, Tree.children, List.map_nil, List.mem_singleton] at hd
    subst hd
    rw [outline_a] at hc
    cases List.mem_singleton.1 hc
    refine ⟨by decide, ?_⟩
    decide +kernel
  · show (resolved _ _ _).glif.outline.getD [] ≠ []
    rw [outline_a]
    decide

end samples3

end GP
