import Verif.Lemmas.Serde
/-! Lemmas about what is accepted by deserialisation. -/
open Fl
namespace GP.Serde
open GP.Spec
variable {PD D α β : Type} {v : Val} {names : List String} {r : Row} {i : Nat} {n : String}

theorem filter_one {fs : List (String × Val)} (h : (fs.filter fun f => f.1 == n).length ≤ 1) :
    ((∀ f ∈ fs, f.1 ≠ n) ∧ (fs.find? fun f => f.1 == n) = none ∧ fs.filter (fun f => f.1 == n) = []) ∨
    ∃ u, fs.filter (fun f => f.1 == n) = [(n, u)] ∧ (fs.find? fun f => f.1 == n) = some (n, u) := by
  rw [← List.head?_filter]
  cases hf : fs.filter fun f => f.1 == n with
  | nil =>
    refine Or.inl ⟨fun f hm he => ?_, rfl, rfl⟩
    rw [List.filter_eq_nil_iff] at hf
    exact hf f hm (by simpa using he)
  | cons f gs =>
    rw [hf] at h
    cases gs with
    | cons _ _ => simp at h
    | nil =>
      refine Or.inr ⟨f.2, ?_⟩
      have : f.1 = n := by
        have := (List.mem_filter.1 (hf ▸ List.mem_singleton.2 rfl : f ∈ fs.filter fun f => f.1 == n)).2
        simpa using this
      subst this
      exact ⟨rfl, rfl⟩

/-- What is found for a field: nothing or what is there. -/
theorem row_cell (hr : v.row names = some r) (hi : names[i]? = some n) :
    (r.vals[i]? = some none ∧ ((r.named = true ∧ ∃ fs, v = .struct fs ∧ (∀ f ∈ fs, f.1 ≠ n) ∧ fs.filter (fun f => f.1 == n) = []) ∨
      (r.named = false ∧ ∃ vs, v = .seq vs ∧ vs.length ≤ i))) ∨
    ∃ u, r.vals[i]? = some (some u) ∧ ((∃ fs, v = .struct fs ∧ fs.filter (fun f => f.1 == n) = [(n, u)]) ∨
      ∃ vs, v = .seq vs ∧ vs[i]? = some u) := by
  cases v with
  | struct fs =>
    simp only [Val.row] at hr
    split at hr
    · rename_i h
      cases hr
      rw [List.all_eq_true] at h
      have := h n (List.mem_of_getElem? hi)
      rcases filter_one (n := n) (fs := fs) (by simpa using this) with ⟨h1, h2, h3⟩ | ⟨u, h1, h2⟩
      · exact Or.inl ⟨by simp [hi, h2], Or.inl ⟨rfl, fs, rfl, h1, h3⟩⟩
      · exact Or.inr ⟨u, by simp [hi, h2], Or.inl ⟨fs, rfl, h1⟩⟩
    · cases hr
  | seq vs =>
    simp only [Val.row] at hr
    split at hr
    · rename_i h
      cases hr
      have hlt : i < names.length := (List.getElem?_eq_some_iff.1 hi).1
      rcases Nat.lt_or_ge i vs.length with hv | hv
      · refine Or.inr ⟨vs[i], ?_, Or.inr ⟨vs, rfl, List.getElem?_eq_getElem hv⟩⟩
        show (vs.map some ++ _)[i]? = _
        rw [List.getElem?_append_left (by simpa using hv), List.getElem?_map, List.getElem?_eq_getElem hv]
        rfl
      · refine Or.inl ⟨?_, Or.inr ⟨rfl, vs, rfl, hv⟩⟩
        show (vs.map some ++ _)[i]? = _
        rw [List.getElem?_append_right (by simpa using hv), List.getElem?_replicate, List.length_map, if_pos (by omega)]
    · cases hr
  | _ => cases hr

theorem field_none {P : Val → Prop} (h : (∃ fs : List (String × Val), v = .struct fs ∧ (∀ f ∈ fs, f.1 ≠ n) ∧ fs.filter (fun f => f.1 == n) = []) ∨
    ∃ vs, v = .seq vs ∧ vs.length ≤ i) : ¬ Field v n i P := by
  rintro (⟨fs, u, rfl, h1, -⟩ | ⟨vs, u, rfl, h1, -⟩)
  · rcases h with ⟨gs, h, -, h2⟩ | ⟨vs, h, -⟩
    · cases h
      rw [h1] at h2; cases h2
    · cases h
  · rcases h with ⟨gs, h, -⟩ | ⟨vs, h, h2⟩
    · cases h
    · cases h
      rw [List.getElem?_eq_none h2] at h1; cases h1

theorem field_some {P : Val → Prop} {u : Val} (h : (∃ fs : List (String × Val), v = .struct fs ∧ fs.filter (fun f => f.1 == n) = [(n, u)]) ∨
      ∃ vs, v = .seq vs ∧ vs[i]? = some u) : Field v n i P ↔ P u := by
  rcases h with ⟨fs, rfl, h⟩ | ⟨vs, rfl, h⟩
  · constructor
    · rintro (⟨gs, u', h1, h2, h3⟩ | ⟨vs, u', h1, -⟩)
      · cases h1
        rw [h] at h2
        cases h2
        exact h3
      · cases h1
    · exact fun hp => Or.inl ⟨fs, u, rfl, h, hp⟩
  · constructor
    · rintro (⟨gs, u', h1, h2, h3⟩ | ⟨vs, u', h1, h2, h3⟩)
      · cases h1
      · cases h1
        rw [h] at h2
        cases h2
        exact h3
    · exact fun hp => Or.inr ⟨vs, u, rfl, h, hp⟩

theorem absent_none {fs : List (String × Val)} {u : Val} (h : fs.filter (fun f => f.1 == n) = [(n, u)]) : ¬ ∀ f ∈ fs, f.1 ≠ n := fun ha => by
  have : (n, u) ∈ fs := (List.mem_filter.1 (h ▸ List.mem_singleton.2 rfl)).1
  exact ha _ this rfl

theorem need_iff {de : Val → Option α} {a : α} (hr : v.row names = some r) (hi : names[i]? = some n) :
    r.need i de = some a ↔ Field v n i (de · = some a) := by
  rcases row_cell hr hi with ⟨h1, h2⟩ | ⟨u, h1, h2⟩
  · simp only [Row.need, h1, reduceCtorEq, false_iff]
    exact field_none (h2.imp And.right And.right)
  · simp only [Row.need, h1]
    rw [field_some h2]

theorem orElse_iff {de : Val → Option α} {a d : α} (hr : v.row names = some r) (hi : names[i]? = some n) :
    r.orElse i d de = some a ↔ FieldOr v n i (de · = some a) (a = d) := by
  unfold FieldOr
  rcases row_cell hr hi with ⟨h1, h2⟩ | ⟨u, h1, h2⟩
  · simp only [Row.orElse, h1, Option.some.injEq]
    constructor
    · rintro rfl
      exact Or.inr ⟨h2.imp (fun ⟨_, fs, e, h, _⟩ => ⟨fs, e, h⟩) And.right, rfl⟩
    · rintro (h | ⟨_, h⟩)
      · exact absurd h (field_none (h2.imp And.right And.right))
      · exact h.symm
  · simp only [Row.orElse, h1]
    rw [field_some h2]
    constructor
    · exact Or.inl
    · rintro (h | ⟨h, -⟩)
      · exact h
      · exfalso
        rcases h2 with ⟨fs, rfl, h2⟩ | ⟨vs, rfl, h2⟩ <;> rcases h with ⟨gs, e, h⟩ | ⟨ws, e, h⟩ <;> cases e
        · exact absent_none h2 h
        · rw [List.getElem?_eq_none h] at h2; cases h2

theorem opt_iff {de : Val → Option (Option α)} {a : Option α} (hr : v.row names = some r) (hi : names[i]? = some n) :
    r.opt i de = some a ↔ FieldOpt v n i (de · = some a) (a = none) := by
  unfold FieldOpt
  rcases row_cell hr hi with ⟨h1, h2⟩ | ⟨u, h1, h2⟩
  · simp only [Row.opt, h1]
    constructor
    · intro h
      rcases h2 with ⟨hn, fs, e, h', _⟩ | ⟨hn, _⟩
      · rw [hn] at h
        exact Or.inr ⟨⟨fs, e, h'⟩, (Option.some.inj h).symm⟩
      · rw [hn] at h; cases h
    · rintro (h | ⟨⟨gs, e, h⟩, rfl⟩)
      · exact absurd h (field_none (h2.imp And.right And.right))
      · rcases h2 with ⟨hn, _⟩ | ⟨_, vs, e', _⟩
        · rw [hn]; rfl
        · rw [e] at e'; cases e'
  · simp only [Row.opt, h1]
    rw [field_some h2]
    constructor
    · exact Or.inl
    · rintro (h | ⟨⟨gs, e, h⟩, -⟩)
      · exact h
      · exfalso
        rcases h2 with ⟨fs, rfl, h2⟩ | ⟨vs, rfl, h2⟩ <;> cases e
        exact absent_none h2 h

/-- No field of this name, or one. -/
def Once (v : Val) (n : String) : Prop := ∀ fs, v = .struct fs → (fs.filter fun f => f.1 == n).length ≤ 1

theorem Field.once {P : Val → Prop} (h : Field v n i P) : Once v n := by
  rintro fs rfl
  rcases h with ⟨gs, u, e, h, -⟩ | ⟨vs, u, e, -⟩
  · cases e; rw [h]; exact Nat.le_refl _
  · cases e

theorem absent_once (h : ∃ fs : List (String × Val), v = .struct fs ∧ ∀ f ∈ fs, f.1 ≠ n) : Once v n := by
  obtain ⟨gs, rfl, h⟩ := h
  intro fs e
  cases e
  rw [List.filter_eq_nil_iff.2 fun f hf => by simpa using h f hf]
  exact Nat.zero_le _

theorem FieldOr.once {P : Val → Prop} {d : Prop} (h : FieldOr v n i P d) : Once v n := by
  rcases h with h | ⟨h | ⟨vs, rfl, -⟩, -⟩
  · exact Field.once h
  · exact absent_once h
  · intro fs e; cases e

theorem FieldOpt.once {P : Val → Prop} {d : Prop} (h : FieldOpt v n i P d) : Once v n := by
  rcases h with h | ⟨h, -⟩
  · exact Field.once h
  · exact absent_once h

theorem row_of {P : Val → Prop} (ha : AtMost v names.length) (hf : Field v n i P) (ho : ∀ n ∈ names, Once v n) : ∃ r, v.row names = some r := by
  rcases hf with ⟨fs, u, rfl, -⟩ | ⟨vs, u, rfl, -⟩
  · simp only [Val.row]
    rw [if_pos]
    · exact ⟨_, rfl⟩
    · rw [List.all_eq_true]
      exact fun n hn => decide_eq_true (ho n hn fs rfl)
  · simp only [Val.row]
    rw [if_pos (ha vs rfl)]
    exact ⟨_, rfl⟩

theorem row_atMost (hr : v.row names = some r) : AtMost v names.length := by
  rintro vs rfl
  simp only [Val.row] at hr
  split at hr
  · assumption
  · cases hr

/-! ## Contours in patterns, glyphs in histories -/

theorem row_depth (hr : v.row names = some r) {u : Val} (hu : some u ∈ r.vals) : u.depth < v.depth := by
  cases v with
  | struct fs =>
    simp only [Val.row] at hr
    split at hr
    · cases hr
      obtain ⟨n, -, hn⟩ := List.mem_map.1 hu
      obtain ⟨f, hf, rfl⟩ := Option.map_eq_some_iff.1 hn
      have := depth_field (k := f.1) (v := f.2) (List.mem_of_find?_eq_some hf)
      simp only [Val.depth]
      omega
    · cases hr
  | seq vs =>
    simp only [Val.row] at hr
    split at hr
    · cases hr
      rcases List.mem_append.1 hu with h | h
      · obtain ⟨x, hx, e⟩ := List.mem_map.1 h
        cases e
        have := depth_mem hx
        simp only [Val.depth]
        omega
      · have := List.eq_of_mem_replicate h
        cases this
    · cases hr
  | _ => cases hr

theorem need_congr (hr : v.row names = some r) {de de' : Val → Option α} (h : ∀ u, u.depth < v.depth → de u = de' u) :
    r.need i de = r.need i de' := by
  unfold Row.need
  split
  · rename_i u hu
    exact h u (row_depth hr (List.mem_of_getElem? hu))
  · rfl

theorem opt_congr (hr : v.row names = some r) {de de' : Val → Option (Option α)} (h : ∀ u, u.depth < v.depth → de u = de' u) :
    r.opt i de = r.opt i de' := by
  unfold Row.opt
  split
  · rename_i u hu
    exact h u (row_depth hr (List.mem_of_getElem? hu))
  · rfl

theorem deSeq_congr {de de' : Val → Option α} (h : ∀ u, u.depth < v.depth → de u = de' u) : deSeq de v = deSeq de' v := by
  cases v with
  | seq vs =>
    simp only [deSeq]
    have h' : ∀ u ∈ vs, de u = de' u := fun u hu => h u (by
      have := depth_mem hu
      simp only [Val.depth]
      omega)
    clear h
    induction vs with
    | nil => rfl
    | cons u vs ih =>
      rw [List.mapM_cons, List.mapM_cons, h' u List.mem_cons_self, ih fun u hu => h' u (List.mem_cons_of_mem _ hu)]
  | _ => rfl

theorem dePap_congr {C : Type} {de de' : Val → Option C} (h : ∀ u, u.depth < v.depth → de u = de' u) : dePap de v = dePap de' v := by
  simp only [dePap]
  cases hr : v.row _ with
  | none => rfl
  | some r =>
    have := need_congr (i := 0) hr (de := deSeq de) (de' := deSeq de') fun u hu => deSeq_congr fun u' hu' => h u' (by omega)
    simp only [Option.bind_eq_bind, Option.bind_some]
    rw [this]

theorem deOp_congr {C : Type} {de de' : Val → Option C} (h : ∀ u, u.depth < v.depth → de u = de' u) : deOp de v = deOp de' v := by
  cases v with
  | variant n v =>
    simp only [deOp]
    cases hr : v.row _ with
    | none => rfl
    | some r =>
      have := need_congr (i := 0) hr (de := dePap de) (de' := dePap de') fun u hu => dePap_congr fun u' hu' => h u' (by
        simp only [Val.depth]
        omega)
      simp only [Option.bind_eq_bind, Option.bind_some]
      rw [this]
  | _ => rfl

/-- How the operation of a contour is deserialised. -/
def deOptOp {C : Type} (de : Val → Option C) : Val → Option (Option (ContourOp C))
  | .some v => (deOp de v).map some
  | .none => some none
  | _ => none

theorem deOptOp_congr {C : Type} {de de' : Val → Option C} (h : ∀ u, u.depth < v.depth → de u = de' u) : deOptOp de v = deOptOp de' v := by
  cases v with
  | some v =>
    simp only [deOptOp]
    rw [deOp_congr fun u hu => h u (by simp only [Val.depth]; omega)]
  | _ => rfl

theorem deContour_succ (pd : Serde PD) (n : Nat) (v : Val) : deContour pd (n + 1) v = (do
    let r ← v.row ["inner", "operation"]
    let inner ← r.need 0 (inner pd).de
    let operation ← r.opt 1 (deOptOp (deContour pd n))
    some { inner, operation }) := by
  simp only [deContour]
  have : (fun v : Val => deOptOp (deContour pd n) v) = fun
      | .some v => (deOp (deContour pd n) v).map some
      | .none => some none
      | _ => none := by
    funext v
    cases v <;> rfl
  show _ = (do
    let r ← v.row ["inner", "operation"]
    let inner ← r.need 0 (inner pd).de
    let operation ← r.opt 1 (fun v => deOptOp (deContour pd n) v)
    some ({ inner, operation } : MContour PD))
  rw [this]
  rfl

theorem deContour_eq (pd : Serde PD) (n m : Nat) (v : Val) (hn : v.depth ≤ n) (hm : v.depth ≤ m) : deContour pd n v = deContour pd m v := by
  induction n generalizing m v with
  | zero =>
    have : 1 ≤ v.depth := by cases v <;> simp [Val.depth]
    omega
  | succ n ih =>
    cases m with
    | zero =>
      have : 1 ≤ v.depth := by cases v <;> simp [Val.depth]
      omega
    | succ m =>
      rw [deContour_succ, deContour_succ]
      cases hr : v.row _ with
      | none => rfl
      | some r =>
        have := opt_congr (i := 1) hr (de := deOptOp (deContour pd n)) (de' := deOptOp (deContour pd m)) fun u hu =>
          deOptOp_congr fun u' hu' => ih m u' (by omega) (by omega)
        simp only [Option.bind_eq_bind, Option.bind_some]
        rw [this]

theorem contour_de (pd : Serde PD) (v : Val) : (contour pd).de v = (do
    let r ← v.row ["inner", "operation"]
    let inner ← r.need 0 (inner pd).de
    let operation ← r.opt 1 (deOptOp (contour pd).de)
    some { inner, operation }) := by
  show deContour pd v.depth v = _
  rw [deContour_eq pd v.depth (v.depth + 1) v (Nat.le_refl _) (Nat.le_succ _), deContour_succ]
  cases hr : v.row _ with
  | none => rfl
  | some r =>
    have := opt_congr (i := 1) hr (de := deOptOp (deContour pd v.depth)) (de' := deOptOp (contour pd).de) fun u hu =>
      deOptOp_congr fun u' hu' => deContour_eq pd _ _ u' (by omega) (Nat.le_refl _)
    simp only [Option.bind_eq_bind, Option.bind_some]
    rw [this]

theorem deEntry_congr {G : Type} {F : Foreign PD D} {de de' : Val → Option G} (h : ∀ u, u.depth < v.depth → de u = de' u) :
    deEntry F de v = deEntry F de' v := by
  simp only [deEntry]
  cases hr : v.row _ with
  | none => rfl
  | some r =>
    have := need_congr (i := 6) hr (de := de) (de' := de') h
    simp only [Option.bind_eq_bind, Option.bind_some]
    rw [this]

theorem deEdited_eq (F : Foreign PD D) (n m : Nat) (v : Val) (hn : v.depth ≤ n) (hm : v.depth ≤ m) : deEdited F n v = deEdited F m v := by
  induction n generalizing m v with
  | zero =>
    have : 1 ≤ v.depth := by cases v <;> simp [Val.depth]
    omega
  | succ n ih =>
    cases m with
    | zero =>
      have : 1 ≤ v.depth := by cases v <;> simp [Val.depth]
      omega
    | succ m =>
      simp only [deEdited]
      cases hr : v.row _ with
      | none => rfl
      | some r =>
        have := need_congr (i := 1) hr (de := deSeq (deEntry F (deEdited F n))) (de' := deSeq (deEntry F (deEdited F m))) fun u hu =>
          deSeq_congr fun u' hu' => deEntry_congr fun u'' hu'' => ih m u'' (by omega) (by omega)
        simp only [Option.bind_eq_bind, Option.bind_some]
        rw [this]

theorem edited_de (F : Foreign PD D) (v : Val) : (edited F).de v = (do
    let r ← v.row ["layers", "history", "anchors", "components", "flattened", "component_rects", "guidelines", "width", "unicode",
      "name", "note", "filename"]
    let layers ← r.need 0 (list (layer F)).de
    let history ← r.need 1 (deSeq (deEntry F (edited F).de))
    let anchors ← r.need 2 (list (anchor F)).de
    let components ← r.need 3 (glifComponents F).de
    let flattened ← r.opt 4 (option (list (list (point F.pd)))).de
    let componentRects ← r.opt 5 (option (list componentRect)).de
    let guidelines ← r.need 6 (list (guideline F)).de
    let width ← r.opt 7 (option u64).de
    let unicode ← r.need 8 (list char).de
    let name ← r.need 9 str.de
    let note ← r.opt 10 (option str).de
    let filename ← r.opt 11 (option F.path).de
    some (.mk { layers, anchors, components, flattened, componentRects, guidelines, width, unicode, name, note, filename } history)) := by
  show deEdited F v.depth v = _
  rw [deEdited_eq F v.depth (v.depth + 1) v (Nat.le_refl _) (Nat.le_succ _)]
  simp only [deEdited]
  cases hr : v.row _ with
  | none => rfl
  | some r =>
    have := need_congr (i := 1) hr (de := deSeq (deEntry F (deEdited F v.depth))) (de' := deSeq (deEntry F (edited F).de)) fun u hu =>
      deSeq_congr fun u' hu' => deEntry_congr fun u'' hu'' => deEdited_eq F _ _ u'' (by omega) (Nat.le_refl _)
    simp only [Option.bind_eq_bind, Option.bind_some]
    rw [this]

/-! ## Enumerations -/

theorem find_iff {names : List (String × α)} (hn : (names.map (·.1)).Nodup) (n : String) (a : α) :
    (names.find? fun x => x.1 == n).map (·.2) = some a ↔ (n, a) ∈ names := by
  constructor
  · intro h
    obtain ⟨x, hx, rfl⟩ := Option.map_eq_some_iff.1 h
    have h1 := List.mem_of_find?_eq_some hx
    have h2 : x.1 = n := by simpa using List.find?_some hx
    subst h2
    exact h1
  · intro h
    induction names with
    | nil => cases h
    | cons x names ih =>
      rw [List.map_cons, List.nodup_cons] at hn
      rcases List.mem_cons.1 h with rfl | h'
      · simp
      · have hne : x.1 ≠ n := fun e => hn.1 (List.mem_map.2 ⟨(n, a), h', e.symm⟩)
        rw [List.find?_cons_of_neg (by simpa using hne)]
        exact ih hn.2 h'

theorem enum_iff {names : List (String × α)} {name : α → String} (hn : (names.map (·.1)).Nodup) (v : Val) (a : α) :
    (enum names name).de v = some a ↔ Named names a v := by
  unfold Named
  cases v with
  | variant n u =>
    cases u with
    | unit =>
      simp only [enum]
      rw [find_iff hn]
      constructor
      · exact fun h => ⟨n, rfl, h⟩
      · rintro ⟨n', e, h⟩
        cases e
        exact h
    | _ =>
      simp only [enum, reduceCtorEq, false_iff]
      rintro ⟨n', e, -⟩
      cases e
  | _ =>
    simp only [enum, reduceCtorEq, false_iff]
    rintro ⟨n', e, -⟩
    cases e

theorem mapM_iff {f : α → Option β} {l : List α} {m : List β} :
    l.mapM f = some m ↔ l.length = m.length ∧ ∀ (i : Nat) (a : α) (b : β), l[i]? = some a → m[i]? = some b → f a = some b := by
  refine ⟨fun h => ?_, fun h => mapM_some h.1 h.2⟩
  induction l generalizing m with
  | nil => cases h; exact ⟨rfl, fun i a b h => by simp at h⟩
  | cons a l ih =>
    rw [List.mapM_cons] at h
    simp only [Option.bind_eq_bind, Option.bind_eq_some_iff] at h
    obtain ⟨b, hb, bs, hbs, h⟩ := h
    cases h
    obtain ⟨h1, h2⟩ := ih hbs
    refine ⟨by simp [h1], fun i a' b' h3 h4 => ?_⟩
    cases i with
    | zero => cases h3; cases h4; exact hb
    | succ i => exact h2 i a' b' h3 h4

end GP.Serde
