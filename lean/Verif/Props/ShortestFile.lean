import Verif.Props.Shortest
import Verif.Props.Write
import Verif.Props.FormatRead
import Verif.Props.ReadPoints
/-!
# C98: numbers of a document that is read and written again
-/
open Fl Fl.Text
namespace GP
open Spec
variable {PD D : Type}

theorem keep_number {e : Element} {k : String} {x : IOF} {s : Str} (h : AttrNumber e k x) (hs : e.get k = some s) (hk : Keepable s) :
    x.text = s ∧ showFloat x.toF32 = s := by
  obtain ⟨t, h1, h2⟩ := h
  cases h1.symm.trans hs
  exact C98_number hk h2

theorem anchor_keeps {ped : Pedantry} (hp : ¬ OfFontFile ped) {e : Element} {a : Anchor} (h : AnchorSays ped e a) :
    KeepsTexts ["x", "y"] e (anchorXml a) := by
  obtain ⟨⟨x, y, hx, hy, cx, cy, -⟩, -, -⟩ := h
  have ex := (cx.resolve_left fun h => hp h.1).2
  have ey := (cy.resolve_left fun h => hp h.1).2
  intro k hk s hs hK
  simp only [List.mem_cons, List.not_mem_nil, or_false] at hk
  rcases hk with rfl | rfl
  · simp [anchorXml, ex, (keep_number hx hs hK).2]
  · simp [anchorXml, ey, (keep_number hy hs hK).2]

theorem guideline_keeps {e : Element} {g : Guideline} (h : GuidelineSays e g) : KeepsTexts ["x", "y", "angle"] e (guidelineXml g) := by
  obtain ⟨⟨sx, hx, fx⟩, ⟨sy, hy, fy⟩, ha, -⟩ := h
  intro k hk s hs hK
  simp only [List.mem_cons, List.not_mem_nil, or_false] at hk
  rcases hk with rfl | rfl | rfl
  · cases hx.symm.trans hs
    simp [guidelineXml, C98_float hK fx]
  · cases hy.symm.trans hs
    simp [guidelineXml, C98_float hK fy]
  · simp [guidelineXml, (keep_number ha hs hK).1]

theorem matrix_keeps {one : IOF} {e el : Element} {m : Mat6} {i : Option Str} (h : MatrixSays one e m) :
    KeepsTexts matrixAttrs e (writeMatrix el m i) := by
  obtain ⟨h1, h2, h3, h4, h5, h6⟩ := h
  intro k hk s hs hK
  have key : ∀ {d x : IOF}, AttrNumberOr e k d x → x.text = s := by
    rintro d x (h | ⟨h, -⟩)
    · exact (keep_number h hs hK).1
    · rw [h] at hs; cases hs
  simp only [matrixAttrs, List.mem_cons, List.not_mem_nil, or_false] at hk
  rcases hk with rfl | rfl | rfl | rfl | rfl | rfl <;> simp [writeMatrix, key ‹AttrNumberOr e _ _ _›]

/-- A place that one of the elements says. -/
def From (es : List Element) (x y : F32) : Prop := ∃ e ∈ es, PlaceSays e x y

theorem handle_from {es : List Element} {o : Option Element} {h : Handle} (ho : ∀ e, o = some e → e ∈ es) (hh : HandleSays o h) :
    ∀ x y, h = .at x y → From es x y := by
  intro x y e
  cases o with
  | none => rw [show h = .colocated from hh] at e; cases e
  | some e' =>
    obtain ⟨x', y', rfl, hp⟩ := hh
    cases e
    exact ⟨e', ho e' rfl, hp⟩

theorem curves_from {es : List Element} {b : Option Element} {e : Element} {segs : List (List Element × Element)} {back : List Element}
    {c : Contour PD} (h : Curves b e segs back c) : (∀ o, b = some o → o ∈ es) → e ∈ es →
    (∀ s ∈ segs, (∀ o ∈ s.1, o ∈ es) ∧ s.2 ∈ es) → (∀ o ∈ back, o ∈ es) →
    ∀ p ∈ c, From es p.x p.y ∧ (∀ x y, p.a = .at x y → From es x y) ∧ ∀ x y, p.b = .at x y → From es x y := by
  induction h with
  | last b e back p hp hb ha =>
    intro fb fe _ fk q hq
    rw [List.mem_singleton.1 hq]
    exact ⟨⟨e, fe, hp.1⟩, handle_from (fun o ho => fk o (List.mem_of_getElem? ho)) ha, handle_from fb hb⟩
  | more b e offs e' segs back p c hp hb ha _ ih =>
    intro fb fe fs fk q hq
    obtain ⟨fo, fe'⟩ := fs _ List.mem_cons_self
    rcases List.mem_cons.1 hq with rfl | hq
    · exact ⟨⟨e, fe, hp.1⟩, handle_from (fun o ho => fo o (List.mem_of_getElem? ho)) ha, handle_from fb hb⟩
    · exact ih (fun o ho => fo o (List.mem_of_getElem? ho)) fe' (fun s hs => fs s (List.mem_cons_of_mem _ hs)) fk q hq

theorem handedOn_mem {es : List Element} : ∀ (segs : List (List Element × Element)) (q : List Element), (∀ o ∈ q, o ∈ es) →
    (∀ s ∈ segs, (∀ o ∈ s.1, o ∈ es) ∧ s.2 ∈ es) →
    (∀ s ∈ handedOn q segs, (∀ o ∈ s.1, o ∈ es) ∧ s.2 ∈ es) ∧ ∀ o ∈ waiting q segs, o ∈ es
  | [], q, hq, _ => ⟨nofun, hq⟩
  | (offs, e) :: segs, q, hq, hs => by
    obtain ⟨h1, h2⟩ := hs _ List.mem_cons_self
    have hqo : ∀ o ∈ q ++ offs, o ∈ es := fun o ho => (List.mem_append.1 ho).elim (hq o) (h1 o)
    obtain ⟨i1, i2⟩ := handedOn_mem segs ((q ++ offs).drop 2) (fun o ho => hqo o (List.mem_of_mem_drop ho))
      fun s hs' => hs s (List.mem_cons_of_mem _ hs')
    refine ⟨fun s hs' => ?_, i2⟩
    rcases List.mem_cons.1 hs' with rfl | hs'
    · exact ⟨hqo, h2⟩
    · exact i1 s hs'

theorem fileCycle_from {es : List Element} {c : Contour PD}
    (h : ∀ p ∈ c, From es p.x p.y ∧ (∀ x y, p.a = .at x y → From es x y) ∧ ∀ x y, p.b = .at x y → From es x y) :
    ∀ g ∈ fileCycle c, ∃ x y, g.x = .float x ∧ g.y = .float y ∧ From es x y := by
  intro g hg
  unfold fileCycle at hg
  obtain ⟨⟨q, p⟩, h1, h2⟩ := List.mem_flatMap.1 hg
  have hqp : q ∈ c ∧ p ∈ c := by
    unfold cyclicPairs at h1
    split at h1
    · next z hz =>
      obtain ⟨a, b⟩ := List.of_mem_zip h1
      refine ⟨?_, b⟩
      rcases List.mem_cons.1 a with rfl | a
      · exact List.mem_of_getLast? hz
      · exact a
    · next hn => exact absurd h1 (by simp)
  obtain ⟨q1, q2, -⟩ := h q hqp.1
  obtain ⟨p1, -, p3⟩ := h p hqp.2
  have hout : From es (outPos q).1 (outPos q).2 := by
    unfold outPos
    split
    · next x y e => exact q2 x y e
    · exact q1
  have hin : From es (inPos p).1 (inPos p).2 := by
    unfold inPos
    split
    · next x y e => exact p3 x y e
    · exact p1
  by_cases ho : p.ptype = .offcurve
  · simp [written, ho] at h2
  · simp only [written, if_neg ho] at h2
    rcases List.mem_append.1 h2 with h2 | h2
    · unfold offsBefore at h2
      split at h2 <;> simp only [List.mem_cons, List.not_mem_nil, or_false] at h2
      · rcases h2 with rfl | rfl
        · exact ⟨_, _, rfl, rfl, hout⟩
        · exact ⟨_, _, rfl, rfl, hin⟩
      · subst h2; exact ⟨_, _, rfl, rfl, hin⟩
    · rw [List.mem_singleton.1 h2]
      exact ⟨_, _, rfl, rfl, p1⟩

theorem point_keeps {g : GlifPoint} {e : Element} {x y : F32} (hx : g.x = .float x) (hy : g.y = .float y) (h : PlaceSays e x y) :
    KeepsTexts ["x", "y"] e (pointXml g) := by
  obtain ⟨X, Y, aX, aY, rfl, rfl⟩ := h
  have gx : ∀ k, k = "x" ∨ k = "y" → (pointXml g).get k = ((({ name := "point" } : Element).set "x" g.x.text).set "y" g.y.text).get k := by
    intro k hk
    have h1 : k ≠ "type" := by rcases hk with rfl | rfl <;> decide
    have h2 : k ≠ "name" := by rcases hk with rfl | rfl <;> decide
    have h3 : k ≠ "smooth" := by rcases hk with rfl | rfl <;> decide
    unfold pointXml
    simp only []
    split <;> split <;> simp only [get_set, get_setOpt, if_neg h1, if_neg h2, if_neg h3]
  intro k hk s hs hK
  simp only [List.mem_cons, List.not_mem_nil, or_false] at hk
  rw [gx k hk]
  rcases hk with rfl | rfl
  · simp [hx, IOF.text, (keep_number aX hs hK).2]
  · simp [hy, IOF.text, (keep_number aY hs hK).2]

theorem keeps_map {α : Type} {R : Element → α → Prop} {ks : List String} {f : α → Element} (h : ∀ e a, R e a → KeepsTexts ks e (f a)) :
    ∀ {es : List Element} {l : List α}, List.Forall₂ R es l → List.Forall₂ (KeepsTexts ks) es (l.map f)
  | [], [], .nil => .nil
  | _ :: _, _ :: _, .cons h1 h2 => .cons (h _ _ h1) (keeps_map h h2)

theorem forall₂_comp {α β γ : Type} {R : α → β → Prop} {S : β → γ → Prop} {T : α → γ → Prop} (h : ∀ a b c, R a b → S b c → T a c) :
    ∀ {l : List α} {m : List β} {n : List γ}, List.Forall₂ R l m → List.Forall₂ S m n → List.Forall₂ T l n
  | [], [], [], .nil, .nil => .nil
  | _ :: _, _ :: _, _ :: _, .cons h1 h2, .cons h3 h4 => .cons (h _ _ _ h1 h3) (forall₂_comp h h2 h4)

theorem forall₂_of_mem {α β : Type} {R : α → β → Prop} {l : List α} {m : List β} (h : List.Forall₂ R l m) :
    List.Forall₂ (fun a b => a ∈ l ∧ R a b) l m := by
  rw [List.forall₂_iff_get] at h ⊢
  exact ⟨h.1, fun i h1 h2 => ⟨List.get_mem _ _, h.2 i h1 h2⟩⟩

/-- **C98.** A document that is read and written again keeps its numbers letter for letter: the places of anchors and guidelines,
the coefficients of images and components, and the places of all points of contours that are not quadratic. -/
theorem C98_file (mid : IOF → IOF → IOF) (pio : PlistIO D) (ped : Pedantry) (hp : ¬ OfFontFile ped) (root root' : Element)
    (g : Glif PD D) (h : readGlif mid pio ped root = .ok g) (hw : glifXml pio g = .ok root') : KeepsNumbers root root' := by
  have hs := C85_says mid pio ped root g h
  have hx := C86_exact mid pio ped root g h
  have hsv := (C94_written pio g).1 ⟨root', hw⟩
  rw [glifXml_eq] at hw
  obtain ⟨oe, ho, hw⟩ := bind_eq_ok.1 hw
  cases hw
  obtain ⟨els, rfl, hels⟩ := outlineElem_parts ho
  have hnm := fun n => written_named pio g ({ name := "outline", children := els.map Element.node } : Element) n
  have hen : ∀ e ∈ els, e.name = "contour" := by
    intro e he
    obtain ⟨i, hi, rfl⟩ := List.getElem_of_mem he
    exact (contourXml_name ((List.forall₂_iff_get.1 hels).2 i (by rw [hels.length_eq]; exact hi) hi)).1
  have hcomp : named "component" (els.map Element.node ++ g.components.vec.map fun c => (componentXml c).node) =
      g.components.vec.map componentXml := by
    rw [named_append, named_contours hen, named_nodes "component" "component" componentXml componentXml_name]
    simp
  have hcont : named "contour" (els.map Element.node ++ g.components.vec.map fun c => (componentXml c).node) = els := by
    rw [named_append, named_contours hen, named_nodes "contour" "component" componentXml componentXml_name]
    simp
  refine ⟨?_, ?_, ?_, ?_, ?_⟩
  · simp only [hnm, String.reduceEq, if_true, if_false, List.nil_append, List.append_nil, ite_self]
    exact keeps_map (fun e a h => anchor_keeps hp h) hs.anchors
  · simp only [hnm, String.reduceEq, if_true, if_false, List.nil_append, List.append_nil, ite_self]
    exact keeps_map (fun e a h => guideline_keeps h) hs.guidelines
  · simp only [hnm, String.reduceEq, if_true, if_false, List.nil_append, List.append_nil, ite_self]
    exact keeps_map (fun e i hi => matrix_keeps hi.2.1) hs.images
  · have hk := keeps_map (f := componentXml) (ks := matrixAttrs) (fun e i hi => matrix_keeps hi.2.1) hs.components
    refine Eq.subst (motive := List.Forall₂ (KeepsTexts matrixAttrs) (componentsOf root)) (Eq.symm ?_) hk
    · unfold componentsOf
      simp only [hnm, String.reduceEq, if_true, if_false, List.nil_append, List.append_nil]
      split
      · next o hl =>
        split at hl
        · cases hl
          exact hcomp
        · cases hl
      · next hl =>
        split at hl
        · cases hl
        · rename_i h0
          cases hv : g.components.vec with
          | nil => rfl
          | cons a l => rw [hv] at h0; simp at h0
  · refine Eq.subst (motive := List.Forall₂ _ _) (a := els) (Eq.symm ?_) ?_
    rotate_left
    · have hall : ∀ c ∈ g.outline.getD [], Savable c := hsv
      have hels' : List.Forall₂ (fun c e => Savable c ∧ contourXml c = .ok e) (g.outline.getD []) els := by
        rw [List.forall₂_iff_get] at hels ⊢
        exact ⟨hels.1, fun i h1 h2 => ⟨hall _ (List.get_mem _ _), hels.2 i h1 h2⟩⟩
      refine forall₂_comp ?_ (forall₂_of_mem hx) hels'
      rintro el c el' ⟨hmem, hc⟩ ⟨hsc, hce⟩ hq e' he'
      have hnd : ¬ Dropped el := by simpa using (List.mem_filter.1 hmem).2
      obtain ⟨e, es, hpe⟩ : ∃ e es, named "point" el.children = e :: es := by
        cases hn : named "point" el.children with
        | nil => exact absurd (by unfold Dropped; rw [hn]; trivial) hnd
        | cons e es => exact ⟨e, es, rfl⟩
      have hon : ¬ IsOff e := by
        intro ho
        exact hnd (by unfold Dropped; rw [hpe]; exact Or.inl ho)
      obtain ⟨segs, back, h1, h2⟩ := C86_segments e es hon
      have hne : ¬ OfType e "qcurve" := hq e (by rw [hpe]; rfl)
      have hty : OfType e "move" ∨ OfType e "line" ∨ OfType e "curve" := by
        rcases not_off_types hon with h | h | h | h
        · exact Or.inl h
        · exact Or.inr (Or.inl h)
        · exact Or.inr (Or.inr h)
        · exact absurd h hne
      obtain ⟨b, b1, b2, hcv⟩ := hc e segs back (hpe.trans h1) h2 hty
      rw [hpe, h1]
      have hsegs : ∀ s ∈ segs, (∀ o ∈ s.1, o ∈ filePoints e segs back) ∧ s.2 ∈ filePoints e segs back := by
        intro s hs'
        unfold filePoints
        constructor
        · intro o ho
          exact List.mem_append_left _ (List.mem_cons_of_mem _ (List.mem_flatMap.2 ⟨s, hs', List.mem_append_left _ ho⟩))
        · exact List.mem_append_left _ (List.mem_cons_of_mem _ (List.mem_flatMap.2 ⟨s, hs', List.mem_append_right _ (by simp)⟩))
      obtain ⟨m1, m2⟩ := handedOn_mem (es := filePoints e segs back) segs [] nofun hsegs
      have hbk : ∀ o ∈ waiting [] segs ++ back, o ∈ filePoints e segs back := by
        intro o ho
        rcases List.mem_append.1 ho with ho | ho
        · exact m2 o ho
        · unfold filePoints; exact List.mem_append_right _ ho
      have hfr := curves_from (es := filePoints e segs back) hcv (by
        intro o ho
        by_cases hm : OfType e "move"
        · rw [b1 hm] at ho; cases ho
        · rw [b2 hm] at ho
          exact hbk o (List.mem_of_getElem? ho)) (by unfold filePoints; simp) m1 hbk
      have hfc := fileCycle_from hfr
      have hwr : ∀ p ∈ c, Writable p.ptype := by
        intro p hp
        have := hsc.2 p hp
        unfold Writable
        cases hpt : p.ptype <;> simp_all
      obtain ⟨p, ps, i1, ⟨s, t, r1, r2⟩, -⟩ := C05_file_points c hsc.1 hwr
      unfold contourXml at hce
      rw [i1] at hce
      cases hce
      simp only [glifContourXml, named_nodes "point" "point" pointXml pointXml_name, if_true] at he'
      obtain ⟨gp, hgp, rfl⟩ := List.mem_map.1 he'
      obtain ⟨x, y, ex, ey, e0, me0, pl⟩ := hfc gp (by
        rw [r2] at hgp; rw [r1]
        simpa [or_comm] using hgp)
      exact ⟨e0, me0, point_keeps ex ey pl⟩
    · unfold contoursOf
      simp only [hnm, String.reduceEq, if_true, if_false, List.nil_append, List.append_nil]
      split
      · next o hl =>
        split at hl
        · cases hl
          exact hcont
        · cases hl
      · next hl =>
        split at hl
        · cases hl
        · rename_i h0
          cases els with
          | nil => rfl
          | cons a l => simp at h0

/-- Texts that are kept. -/
theorem keepable_sample : Keepable "10.5".toList ∧ Keepable "-0.1".toList ∧ Keepable "16777215".toList ∧ Keepable "0".toList := by
  refine ⟨⟨false, 105 / 10, ⟨_, Or.inr ⟨rfl, rfl⟩, ['1', '0'], ['5'], 105, by decide, by decide, by decide, by decide, (numeral_iff (by decide) _ _).2 (by decide +kernel), by norm_num⟩,
      Or.inr (Or.inr ⟨⟨105, -1, by norm_num, by norm_num⟩, by norm_num, by norm_num⟩)⟩,
    ⟨true, 1 / 10, ⟨_, Or.inl ⟨rfl, rfl⟩, ['0'], ['1'], 1, by decide, by decide, by decide, by decide, (numeral_iff (by decide) _ _).2 (by decide +kernel), by norm_num⟩,
      Or.inr (Or.inr ⟨⟨1, -1, by norm_num, by norm_num⟩, by norm_num, by norm_num⟩)⟩,
    ⟨false, 16777215, ⟨_, Or.inr ⟨rfl, rfl⟩, "16777215".toList, [], 16777215, by decide, by decide, by decide, by decide, (numeral_iff (by decide) _ _).2 (by decide +kernel), by norm_num⟩,
      Or.inr (Or.inl ⟨16777215, by norm_num, by norm_num, by norm_num⟩)⟩,
    ⟨false, 0, ⟨_, Or.inr ⟨rfl, rfl⟩, "0".toList, [], 0, by decide, by decide, by decide, by decide, (numeral_iff (by decide) _ _).2 (by decide +kernel), by norm_num⟩,
      Or.inl ⟨rfl, rfl⟩⟩⟩

/-- A document whose numbers are all kept. -/
example :
    let mid : IOF → IOF → IOF := fun a _ => a
    let pio : PlistIO Unit := ⟨fun _ => none, fun _ => none⟩
    let ps := [Sample.pe "curve" "10.5" "-0.1", Sample.pe "line" "0" "16777215", Sample.offe "-0.1" "0", Sample.offe "10.5" "10.5"]
    ∃ (g : Glif Unit Unit) (root' : Element), readGlif mid pio {} (Sample.doc ps) = .ok g ∧ glifXml pio g = .ok root' ∧
      (contoursOf root').map (fun c => (named "point" c.children).map fun e => (e.get "x", e.get "y")) =
        [[(some "0".toList, some "16777215".toList), (some "-0.1".toList, some "0".toList), (some "10.5".toList, some "10.5".toList),
          (some "10.5".toList, some "-0.1".toList)]] := by
  intro mid pio ps
  have hok : (match readGlif (PD := Unit) mid pio {} (Sample.doc ps) with
      | .ok g => (match glifXml pio g with
        | .ok root' => some ((contoursOf root').map fun c => (named "point" c.children).map fun e => (e.get "x", e.get "y"))
        | _ => none)
      | _ => none) = some [[(some "0".toList, some "16777215".toList), (some "-0.1".toList, some "0".toList),
        (some "10.5".toList, some "10.5".toList), (some "10.5".toList, some "-0.1".toList)]] := by decide +kernel
  match hr : readGlif (PD := Unit) mid pio {} (Sample.doc ps) with
  | .ok g =>
    rw [hr] at hok
    simp only [] at hok
    match hg : glifXml pio g with
    | .ok root' => rw [hg] at hok; exact ⟨g, root', rfl, hg, Option.some.inj hok⟩
    | .err _ => rw [hg] at hok; cases hok
    | .panic => rw [hg] at hok; cases hok
  | .err _ => rw [hr] at hok; cases hok
  | .panic => rw [hr] at hok; cases hok

/-- Texts that are not kept: a zero too many, and more digits than single precision has. -/
example : ∃ x y, FloatText b32 "1.0".toList x ∧ showFloat x = "1".toList ∧
    FloatText b32 "16777217".toList y ∧ showFloat y = "16777216".toList := by
  refine ⟨_, _, (C79_float b32_p2 "1.0".toList _).1 (by decide +kernel : _ = some (Flt.ofInt b32 1)), by decide +kernel,
    (C79_float b32_p2 "16777217".toList _).1 (by decide +kernel : _ = some (Flt.ofInt b32 16777216)), by decide +kernel⟩

end GP
