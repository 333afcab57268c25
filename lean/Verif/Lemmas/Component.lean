import Verif.Spec.Component
/-!
# Lemmas on resolving components
-/
open Fl
namespace GP
variable {PD D : Type}

section runs
variable {α β γ σ : Type}

@[simp] theorem Run.bind_ok (a : α) (f : α → Run β) : Run.bind (some (.ok a)) f = f a := rfl
@[simp] theorem Run.bind_err (e : GErr) (f : α → Run β) : Run.bind (some (.err e)) f = some (.err e) := rfl
@[simp] theorem Run.bind_panic (f : α → Run β) : Run.bind (some .panic) f = some .panic := rfl
@[simp] theorem Run.bind_none (f : α → Run β) : Run.bind none f = none := rfl

theorem Run.bind_assoc (x : Run α) (f : α → Run β) (g : β → Run γ) :
    Run.bind (Run.bind x f) g = Run.bind x fun a => Run.bind (f a) g := by
  match x with
  | none => rfl
  | some (.ok a) => rfl
  | some (.err e) => rfl
  | some .panic => rfl

/-- Run a function on each element, stopping at the first failure. -/
def Run.mapM (f : α → Run β) : List α → Run (List β)
  | [] => some (.ok [])
  | a :: l => Run.bind (f a) fun b => Run.bind (Run.mapM f l) fun bs => some (.ok (b :: bs))

/-- A loop that collects results and leaves the rest of its state as it was. -/
theorem Run.fold_collect (f : α → Run β) (u : σ) (step : List β × σ → α → Run (List β × σ)) (l : List α)
    (h : ∀ ts, ∀ a ∈ l, step (ts, u) a = Run.bind (f a) fun b => some (.ok (ts ++ [b], u))) (ts : List β) :
    Run.fold step (ts, u) l = Run.bind (Run.mapM f l) fun bs => some (.ok (ts ++ bs, u)) := by
  induction l generalizing ts with
  | nil => simp [Run.fold, Run.mapM]
  | cons a l ih =>
    have ih' := ih (fun ts b hb => h ts b (List.mem_cons_of_mem _ hb))
    simp only [Run.fold, Run.mapM]
    rw [h ts a (List.mem_cons_self ..), Run.bind_assoc, Run.bind_assoc]
    congr 1
    funext b
    rw [Run.bind_ok, ih', Run.bind_assoc]
    simp

theorem Run.mapM_ok {f : α → Run β} {l : List α} {bs : List β} :
    Run.mapM f l = some (.ok bs) ↔ List.Forall₂ (fun a b => f a = some (.ok b)) l bs := by
  induction l generalizing bs with
  | nil =>
    simp only [Run.mapM, Option.some.injEq, Out.ok.injEq, List.forall₂_nil_left_iff]
    exact eq_comm
  | cons a l ih =>
    simp only [Run.mapM]
    match h : f a with
    | none => simp [h, List.forall₂_cons_left_iff]
    | some (.err e) => simp [h, List.forall₂_cons_left_iff]
    | some .panic => simp [h, List.forall₂_cons_left_iff]
    | some (.ok b) =>
      rw [Run.bind_ok, List.forall₂_cons_left_iff]
      match h' : Run.mapM f l with
      | none =>
        constructor
        · intro h; cases h
        rintro ⟨b', u', e1, e2, _⟩
        rw [ih.2 e2] at h'; cases h'
      | some (.err e) =>
        constructor
        · intro h; cases h
        rintro ⟨b', u', e1, e2, _⟩
        rw [ih.2 e2] at h'; cases h'
      | some .panic =>
        constructor
        · intro h; cases h
        rintro ⟨b', u', e1, e2, _⟩
        rw [ih.2 e2] at h'; cases h'
      | some (.ok bs') =>
        simp only [Run.bind_ok, Option.some.injEq, Out.ok.injEq]
        constructor
        · rintro rfl
          exact ⟨b, bs', h, ih.1 h', rfl⟩
        · rintro ⟨b', u', e1, e2, rfl⟩
          rw [h] at e1
          cases e1
          rw [ih.2 e2] at h'
          cases h'
          rfl

/-- A loop that returns an error returns the error of one of its elements. -/
theorem Run.mapM_err {f : α → Run β} {l : List α} {e : GErr} (h : Run.mapM f l = some (.err e)) :
    ∃ a ∈ l, f a = some (.err e) := by
  induction l with
  | nil => simp [Run.mapM] at h
  | cons a l ih =>
    simp only [Run.mapM] at h
    match h1 : f a with
    | none => simp [h1] at h
    | some (.err e') => simp only [h1, Run.bind_err] at h; cases h; exact ⟨a, List.mem_cons_self .., h1⟩
    | some .panic => simp [h1] at h
    | some (.ok b) =>
      rw [h1, Run.bind_ok] at h
      match h2 : Run.mapM f l with
      | none => simp [h2] at h
      | some (.err e') =>
        simp only [h2, Run.bind_err] at h
        obtain ⟨a', ha, h'⟩ := ih (h2.trans h)
        exact ⟨a', List.mem_cons_of_mem _ ha, h'⟩
      | some .panic => simp [h2] at h
      | some (.ok b) => simp [h2] at h

theorem Run.mapM_panic {f : α → Run β} {l : List α} (h : Run.mapM f l = some .panic) :
    ∃ a ∈ l, f a = some .panic := by
  induction l with
  | nil => simp [Run.mapM] at h
  | cons a l ih =>
    simp only [Run.mapM] at h
    match h1 : f a with
    | none => simp [h1] at h
    | some (.err e') => simp [h1] at h
    | some .panic => exact ⟨a, List.mem_cons_self .., h1⟩
    | some (.ok b) =>
      rw [h1, Run.bind_ok] at h
      match h2 : Run.mapM f l with
      | none => simp [h2] at h
      | some (.err e') => simp [h2] at h
      | some .panic =>
        obtain ⟨a', ha, h'⟩ := ih h2
        exact ⟨a', List.mem_cons_of_mem _ ha, h'⟩
      | some (.ok b) => simp [h2] at h

theorem Run.mapM_ne_none {f : α → Run β} {l : List α} (h : ∀ a ∈ l, f a ≠ none) : Run.mapM f l ≠ none := by
  induction l with
  | nil => simp [Run.mapM]
  | cons a l ih =>
    simp only [Run.mapM]
    have h0 := h a (List.mem_cons_self ..)
    have ih' := ih fun b hb => h b (List.mem_cons_of_mem _ hb)
    match h1 : f a with
    | none => exact absurd h1 h0
    | some (.err e') => simp
    | some .panic => simp
    | some (.ok b) =>
      rw [Run.bind_ok]
      match h2 : Run.mapM f l with
      | none => exact absurd h2 ih'
      | some (.err e') => simp
      | some .panic => simp
      | some (.ok b) => simp

/-- If `g` agrees with `f` wherever `f` finishes, so does the loop. -/
theorem Run.mapM_mono {f g : α → Run β} {l : List α} (h : ∀ a ∈ l, ∀ r, f a = some r → g a = some r)
    {r : R (List β)} (hr : Run.mapM f l = some r) : Run.mapM g l = some r := by
  induction l generalizing r with
  | nil => exact hr
  | cons a l ih =>
    simp only [Run.mapM] at hr ⊢
    have ih' := @ih fun b hb => h b (List.mem_cons_of_mem _ hb)
    have h0 := h a (List.mem_cons_self ..)
    match h1 : f a with
    | none => simp [h1] at hr
    | some (.err e') => rw [h1] at hr; rw [h0 _ h1]; exact hr
    | some .panic => rw [h1] at hr; rw [h0 _ h1]; exact hr
    | some (.ok b) =>
      rw [h1, Run.bind_ok] at hr
      rw [h0 _ h1, Run.bind_ok]
      match h2 : Run.mapM f l with
      | none => simp [h2] at hr
      | some x => rw [h2] at hr; rw [ih' h2]; exact hr

end runs

/-! ## Building a tree without the set that is passed along -/

section build
variable (toC : GlifComponent → R (Component PD D))

/-- `buildComponentTree` without returning `uniques`. -/
def buildTree : Nat → List Str → Component PD D → Run (Tree (Component PD D))
  | 0, _, _ => none
  | n + 1, u, comp =>
    Run.bind (Run.mapM (fun gc =>
        if gc.base ∈ u then some (.err .componentsCyclical)
        else Run.bind (some (toC gc)) fun c => buildTree n (gc.base :: u) c) comp.glif.components.vec)
      fun ts => some (.ok (.node comp ts))

/-- One child in `buildTree`. -/
def buildKid (n : Nat) (u : List Str) (gc : GlifComponent) : Run (Tree (Component PD D)) :=
  if gc.base ∈ u then some (.err .componentsCyclical)
  else Run.bind (some (toC gc)) fun c => buildTree toC n (gc.base :: u) c

theorem buildTree_succ (n : Nat) (u : List Str) (comp : Component PD D) :
    buildTree toC (n + 1) u comp =
      Run.bind (Run.mapM (buildKid toC n u) comp.glif.components.vec) fun ts => some (.ok (.node comp ts)) := rfl

/-- The set `uniques` is left as it was. -/
theorem buildComponentTree_eq (n : Nat) (u : List Str) (comp : Component PD D) :
    buildComponentTree toC n u comp = Run.bind (buildTree toC n u comp) fun t => some (.ok (t, u)) := by
  induction n generalizing u comp with
  | zero => rfl
  | succ n ih =>
    rw [buildTree_succ, Run.bind_assoc]
    show Run.bind (Run.fold _ ([], u) _) _ = _
    rw [Run.fold_collect (buildKid toC n u) u]
    · rw [Run.bind_assoc]
      simp
    · intro ts gc _
      unfold buildKid
      by_cases hb : gc.base ∈ u
      · simp [hb]
      · simp only [if_neg hb, Run.bind_assoc]
        congr 1
        funext c
        rw [ih, Run.bind_assoc]
        congr 1
        funext t
        have hf : List.filter (fun b => decide (b ≠ gc.base)) (gc.base :: u) = u := by
          rw [List.filter_cons_of_neg (by simp)]
          rw [List.filter_eq_self]
          intro b hbu
          have : b ≠ gc.base := fun e => hb (e ▸ hbu)
          simpa using this
        simp only [Run.bind_ok, hf]

/-- One tree of the forest. -/
def buildRoot (n : Nat) (u : List Str) (gc : GlifComponent) : Run (Tree (Component PD D)) :=
  Run.bind (some (toC gc)) fun c => buildTree toC n u c

theorem forest_eq (n : Nat) (gcs : GlifComponents) :
    gcs.forest toC n = Run.mapM (buildRoot toC n gcs.uniques) gcs.vec := by
  unfold GlifComponents.forest
  rw [Run.fold_collect (buildRoot toC n gcs.uniques) gcs.uniques, Run.bind_assoc]
  · match Run.mapM (buildRoot toC n gcs.uniques) gcs.vec with
    | none => rfl
    | some (.err e) => rfl
    | some .panic => rfl
    | some (.ok ts) => rfl
  · intro ts gc _
    unfold buildRoot
    rw [Run.bind_assoc]
    congr 1
    funext c
    rw [buildComponentTree_eq, Run.bind_assoc]
    rfl

/-! ## Termination -/

theorem buildKid_mono_aux {n : Nat} (ih : ∀ u comp r, buildTree toC n u comp = some r →
      buildTree toC (n + 1) u comp = some r) (u : List Str) (gc : GlifComponent) (r : R (Tree (Component PD D)))
    (h : buildKid toC n u gc = some r) : buildKid toC (n + 1) u gc = some r := by
  unfold buildKid at h ⊢
  split at h
  next hb => rw [if_pos hb]; exact h
  next hb =>
    rw [if_neg hb]
    match hc : toC gc with
    | .err e => rw [hc] at h; exact h
    | .panic => rw [hc] at h; exact h
    | .ok c => rw [hc] at h; exact ih _ _ _ h

/-- A greater depth bound does not change a result. -/
theorem buildTree_mono_step (n : Nat) (u : List Str) (comp : Component PD D) (r : R (Tree (Component PD D)))
    (h : buildTree toC n u comp = some r) : buildTree toC (n + 1) u comp = some r := by
  induction n generalizing u comp r with
  | zero => cases h
  | succ n ih =>
    rw [buildTree_succ] at h ⊢
    match hm : Run.mapM (buildKid toC n u) comp.glif.components.vec with
    | none => rw [hm] at h; cases h
    | some x =>
      rw [hm] at h
      rw [Run.mapM_mono (fun a _ r' hr' => buildKid_mono_aux toC ih u a r' hr') hm]
      exact h

theorem buildRoot_mono_step (n : Nat) (u : List Str) (gc : GlifComponent) (r : R (Tree (Component PD D)))
    (h : buildRoot toC n u gc = some r) : buildRoot toC (n + 1) u gc = some r := by
  unfold buildRoot at h ⊢
  match hc : toC gc with
  | .err e => rw [hc] at h; exact h
  | .panic => rw [hc] at h; exact h
  | .ok c => rw [hc] at h; exact buildTree_mono_step toC n u c r h

theorem forest_mono {n m : Nat} (hnm : n ≤ m) {gcs : GlifComponents} {r : R (List (Tree (Component PD D)))}
    (h : gcs.forest toC n = some r) : gcs.forest toC m = some r := by
  induction hnm with
  | refl => exact h
  | step _ ih =>
    rw [forest_eq] at ih ⊢
    exact Run.mapM_mono (fun a _ r' => buildRoot_mono_step toC _ _ a r') ih

theorem filter_lt {B u : List Str} {b : Str} (hb : b ∈ B) (hu : b ∉ u) :
    (B.filter (fun x => decide (x ∉ b :: u))).length < (B.filter (fun x => decide (x ∉ u))).length := by
  induction B with
  | nil => cases hb
  | cons a B ih =>
    have hle : ∀ B : List Str, (B.filter (fun x => decide (x ∉ b :: u))).length ≤ (B.filter (fun x => decide (x ∉ u))).length := by
      intro B
      induction B with
      | nil => simp
      | cons a B ih =>
        by_cases h1 : a ∈ u
        · simp [h1] at ih ⊢; exact ih
        · by_cases h2 : a = b
          · subst h2
            simp [h1] at ih ⊢
            omega
          · simp [h1, h2] at ih ⊢; exact ih
    by_cases e : a = b
    · subst e
      have := hle B
      simp [hu] at this ⊢
      omega
    · have hb' : b ∈ B := by
        rcases List.mem_cons.1 hb with h | h
        · exact absurd h.symm e
        · exact h
      have := ih hb'
      by_cases h1 : a ∈ u
      · simp [h1] at this ⊢; exact this
      · simp [h1, e] at this ⊢; exact this

/-- If all names that occur are in `B`, a depth of one more than the number of names in `B` that are
not in `uniques` is enough. -/
theorem buildTree_ne_none (B : List Str)
    (hB : ∀ c comp, toC c = .ok comp → ∀ d ∈ comp.glif.components.vec, d.base ∈ B)
    (n : Nat) (u : List Str) (comp : Component PD D) (hc : ∀ d ∈ comp.glif.components.vec, d.base ∈ B)
    (hn : (B.filter (fun x => decide (x ∉ u))).length ≤ n) : buildTree toC (n + 1) u comp ≠ none := by
  induction n generalizing u comp with
  | zero =>
    rw [buildTree_succ]
    have : Run.mapM (buildKid toC 0 u) comp.glif.components.vec ≠ none := by
      apply Run.mapM_ne_none
      intro d hd
      have hdB := hc d hd
      have hdu : d.base ∈ u := by
        by_cases h : d.base ∈ u
        · exact h
        · have := filter_lt hdB h
          omega
      unfold buildKid
      rw [if_pos hdu]
      simp
    match h : Run.mapM (buildKid toC 0 u) comp.glif.components.vec with
    | none => exact absurd h this
    | some (.err e) => simp
    | some .panic => simp
    | some (.ok ts) => simp
  | succ n ih =>
    rw [buildTree_succ]
    have : Run.mapM (buildKid toC (n + 1) u) comp.glif.components.vec ≠ none := by
      apply Run.mapM_ne_none
      intro d hd
      have hdB := hc d hd
      unfold buildKid
      by_cases hdu : d.base ∈ u
      · rw [if_pos hdu]; simp
      · rw [if_neg hdu]
        match hcd : toC d with
        | .err e => simp
        | .panic => simp
        | .ok c =>
          refine ih _ _ (hB d c hcd) ?_
          have := filter_lt hdB hdu
          omega
    match h : Run.mapM (buildKid toC (n + 1) u) comp.glif.components.vec with
    | none => exact absurd h this
    | some (.err e) => simp
    | some .panic => simp
    | some (.ok ts) => simp

theorem forest_ne_none (B : List Str)
    (hB : ∀ c comp, toC c = .ok comp → ∀ d ∈ comp.glif.components.vec, d.base ∈ B) (gcs : GlifComponents) :
    gcs.forest toC (B.length + 1) ≠ none := by
  rw [forest_eq]
  apply Run.mapM_ne_none
  intro c _
  unfold buildRoot
  match hc : toC c with
  | .err e => simp
  | .panic => simp
  | .ok comp => exact buildTree_ne_none toC B hB _ _ comp (hB c comp hc) (List.length_filter_le _ _)

end build

/-! ## What `to_component` gives -/

section font
variable {mid : IOF → IOF → IOF} {pio : PlistIO D} {files : Files}

/-- `to_component` of a reference to a file that holds a glyph. -/
def resolved (c : GlifComponent) (f : Path) (g : Glif PD D) : Component PD D :=
  { glif := { name := c.base, filename := some f,
              components := { g.components with vec := g.components.vec.map (Spec.located f) },
              anchors := g.anchors, outline := g.outline }
    matrix := c.m.affine }

theorem toComponent_ok {c : GlifComponent} {comp : Component PD D} :
    c.toComponent mid pio files = .ok comp ↔
      ∃ f, ∃ g : Glif PD D, c.filename = some f ∧ Spec.Holds PD mid pio files f g ∧ comp = resolved c f g := by
  unfold GlifComponent.toComponent Spec.Holds
  constructor
  · intro h
    match hf : c.filename with
    | none => rw [hf] at h; cases h
    | some f =>
      rw [hf] at h
      simp only [Out.ofOption_some, Out.bind_ok] at h
      match hx : files f with
      | none => rw [hx] at h; cases h
      | some none => rw [hx] at h; cases h
      | some (some e) =>
        rw [hx] at h
        simp only [Out.ofOption_some, Out.bind_ok] at h
        match hg : (readGlif mid pio {} e : R (Glif PD D)) with
        | .err er => rw [hg] at h; cases h
        | .panic => rw [hg] at h; cases h
        | .ok g =>
          rw [hg] at h
          simp only [Out.bind_ok, Out.ok.injEq] at h
          exact ⟨f, g, rfl, ⟨e, hx, hg⟩, h.symm⟩
  · rintro ⟨f, g, hf, ⟨e, he, hg⟩, rfl⟩
    rw [hf]
    simp only [Out.ofOption_some, Out.bind_ok, he, hg]
    rfl

theorem refers_iff {c d : GlifComponent} : Spec.Refers PD mid pio files c d ↔
    ∃ comp : Component PD D, c.toComponent mid pio files = .ok comp ∧ d ∈ comp.glif.components.vec := by
  constructor
  · rintro ⟨f, g, hf, hg, d', hd', rfl⟩
    exact ⟨resolved c f g, toComponent_ok.2 ⟨f, g, hf, hg, rfl⟩, List.mem_map_of_mem hd'⟩
  · rintro ⟨comp, hc, hd⟩
    obtain ⟨f, g, hf, hg, rfl⟩ := toComponent_ok.1 hc
    obtain ⟨d', hd', rfl⟩ := List.mem_map.1 hd
    exact ⟨f, g, hf, hg, d', hd', rfl⟩

theorem resolvable_iff {c : GlifComponent} : Spec.Resolvable PD mid pio files c ↔
    ∃ comp : Component PD D, c.toComponent mid pio files = .ok comp := by
  constructor
  · rintro ⟨f, g, hf, hg⟩; exact ⟨_, toComponent_ok.2 ⟨f, g, hf, hg, rfl⟩⟩
  · rintro ⟨comp, hc⟩
    obtain ⟨f, g, hf, hg, -⟩ := toComponent_ok.1 hc
    exact ⟨f, g, hf, hg⟩

/-- Only the file matters for what a reference leads to. -/
theorem refers_of_file {c c' d : GlifComponent} (h : c.filename = c'.filename)
    (hr : Spec.Refers PD mid pio files c d) : Spec.Refers PD mid pio files c' d := by
  obtain ⟨f, g, hf, hg, d', hd', e⟩ := hr
  exact ⟨f, g, h ▸ hf, hg, d', hd', e⟩

/-! ## Cycles -/

/-- `k` steps lead from `c` to `d`. -/
def Steps (r : GlifComponent → GlifComponent → Prop) : Nat → GlifComponent → GlifComponent → Prop
  | 0, c, d => c = d
  | k + 1, c, d => ∃ c', r c c' ∧ Steps r k c' d

theorem Steps.append {r : GlifComponent → GlifComponent → Prop} {i j : Nat} {a b c : GlifComponent}
    (h1 : Steps r i a b) (h2 : Steps r j b c) : Steps r (i + j) a c := by
  induction i generalizing a with
  | zero => cases h1; rwa [Nat.zero_add]
  | succ i ih =>
    obtain ⟨a', h, h'⟩ := h1
    rw [Nat.succ_add]
    exact ⟨a', h, ih h'⟩

theorem Steps.of_reflTransGen {r : GlifComponent → GlifComponent → Prop} {a b : GlifComponent}
    (h : Relation.ReflTransGen r a b) : ∃ k, Steps r k a b := by
  induction h with
  | refl => exact ⟨0, rfl⟩
  | tail _ h ih =>
    obtain ⟨k, hk⟩ := ih
    exact ⟨k + 1, hk.append ⟨_, h, rfl⟩⟩

theorem Steps.of_transGen {r : GlifComponent → GlifComponent → Prop} {a b : GlifComponent}
    (h : Relation.TransGen r a b) : ∃ k, Steps r (k + 1) a b := by
  induction h with
  | single h => exact ⟨0, _, h, rfl⟩
  | tail _ h ih =>
    obtain ⟨k, hk⟩ := ih
    exact ⟨k + 1, hk.append (j := 1) ⟨_, h, rfl⟩⟩

/-- If a tree could be built, chains of references are shorter than the depth bound. -/
theorem steps_lt {n : Nat} {u : List Str} {c : GlifComponent} {comp : Component PD D}
    {t : Tree (Component PD D)} (hc : c.toComponent mid pio files = .ok comp)
    (h : buildTree (fun c => (c.toComponent mid pio files : R (Component PD D))) n u comp = some (.ok t)) {k : Nat} {d : GlifComponent}
    (hs : Steps (Spec.Refers PD mid pio files) k c d) : k < n := by
  induction n generalizing u c comp t k d with
  | zero => cases h
  | succ n ih =>
    match k, hs with
    | 0, _ => omega
    | k + 1, ⟨c', hr, hs'⟩ =>
      obtain ⟨comp', hc', hmem⟩ := refers_iff.1 hr
      rw [hc] at hc'
      cases hc'
      rw [buildTree_succ] at h
      match hm : Run.mapM (buildKid (fun c => (c.toComponent mid pio files : R (Component PD D))) n u) comp.glif.components.vec with
      | none => rw [hm] at h; cases h
      | some (.err e) => rw [hm] at h; cases h
      | some .panic => rw [hm] at h; cases h
      | some (.ok ts) =>
        have hf := Run.mapM_ok.1 hm
        obtain ⟨t', -, ht'⟩ : ∃ t' ∈ ts, buildKid (fun c => (c.toComponent mid pio files : R (Component PD D))) n u c' = some (.ok t') := by
          clear hm h hc
          generalize comp.glif.components.vec = l at hf hmem
          induction hf with
          | nil => cases hmem
          | cons h1 _ ih2 =>
            rcases List.mem_cons.1 hmem with rfl | hm'
            · exact ⟨_, List.mem_cons_self .., h1⟩
            · obtain ⟨t', h1, h2⟩ := ih2 hm'
              exact ⟨t', List.mem_cons_of_mem _ h1, h2⟩
        unfold buildKid at ht'
        split at ht'
        next => cases ht'
        next =>
          match hcc : (c'.toComponent mid pio files : R (Component PD D)) with
          | .err e => simp only [hcc] at ht'; cases ht'
          | .panic => simp only [hcc] at ht'; cases ht'
          | .ok comp' =>
            simp only [hcc, Run.bind_ok] at ht'
            have := ih hcc ht' hs'
            omega

/-- A cycle gives chains of any length. -/
theorem cyclic_steps {cs : List GlifComponent} (h : Spec.Cyclic PD mid pio files cs) :
    ∃ c ∈ cs, ∀ n, ∃ k d, n ≤ k ∧ Steps (Spec.Refers PD mid pio files) k c d := by
  obtain ⟨c, hc, d, d', h1, h2, h3⟩ := h
  obtain ⟨i, hi⟩ := Steps.of_reflTransGen h1
  obtain ⟨j, hj⟩ := Steps.of_transGen h2
  have hloop : Steps (Spec.Refers PD mid pio files) (j + 1) d' d' := by
    obtain ⟨e, he, he'⟩ := hj
    exact ⟨e, refers_of_file h3.symm he, he'⟩
  have hall : ∀ n, ∃ k, n ≤ k ∧ Steps (Spec.Refers PD mid pio files) k d' d' := by
    intro n
    induction n with
    | zero => exact ⟨0, Nat.le_refl _, rfl⟩
    | succ n ih =>
      obtain ⟨k, hk, hs⟩ := ih
      exact ⟨k + (j + 1), by omega, hs.append hloop⟩
  refine ⟨c, hc, fun n => ?_⟩
  obtain ⟨k, hk, hs⟩ := hall n
  exact ⟨i + (j + 1 + k), d', by omega, hi.append (hj.append hs)⟩

/-- Building from a reference all of whose files can be read fails only when a name comes back. -/
theorem buildTree_fails {n : Nat} {u : List Str} {c : GlifComponent} {comp : Component PD D}
    {r : R (Tree (Component PD D))} (hc : c.toComponent mid pio files = .ok comp)
    (hh : ∀ d, Spec.Reach PD mid pio files c d → Spec.Resolvable PD mid pio files d)
    (h : buildTree (fun c => (c.toComponent mid pio files : R (Component PD D))) n u comp = some r) :
    (∃ t, r = .ok t) ∨ (r = .err .componentsCyclical ∧ ∃ y z, Spec.Reach PD mid pio files c y ∧
      Spec.Refers PD mid pio files y z ∧ (z.base ∈ u ∨ ∃ w, Relation.TransGen (Spec.Refers PD mid pio files) c w ∧
        Spec.Reach PD mid pio files w y ∧ w.base = z.base)) := by
  induction n generalizing u c comp r with
  | zero => cases h
  | succ n ih =>
    rw [buildTree_succ] at h
    have kid : ∀ d ∈ comp.glif.components.vec, ∀ r', buildKid (fun c => (c.toComponent mid pio files : R (Component PD D))) n u d = some r' →
        (∃ t, r' = .ok t) ∨ (r' = .err .componentsCyclical ∧ ∃ y z, Spec.Reach PD mid pio files c y ∧
          Spec.Refers PD mid pio files y z ∧ (z.base ∈ u ∨ ∃ w, Relation.TransGen (Spec.Refers PD mid pio files) c w ∧
            Spec.Reach PD mid pio files w y ∧ w.base = z.base)) := by
      intro d hd r' hr'
      have hcd : Spec.Refers PD mid pio files c d := refers_iff.2 ⟨comp, hc, hd⟩
      unfold buildKid at hr'
      split at hr'
      next hb =>
        right
        cases hr'
        exact ⟨rfl, c, d, Relation.ReflTransGen.refl, hcd, Or.inl hb⟩
      next hb =>
        obtain ⟨compd, hcompd⟩ := resolvable_iff.1 (hh d (Relation.ReflTransGen.single hcd))
        simp only [hcompd, Run.bind_ok] at hr'
        rcases ih hcompd (fun e he => hh e (Relation.ReflTransGen.head hcd he)) hr' with h1 | ⟨h1, y, z, h2, h3, h4⟩
        · exact Or.inl h1
        · refine Or.inr ⟨h1, y, z, Relation.ReflTransGen.head hcd h2, h3, ?_⟩
          rcases h4 with h4 | ⟨w, h4, h5, h6⟩
          · rcases List.mem_cons.1 h4 with h4 | h4
            · exact Or.inr ⟨d, Relation.TransGen.single hcd, h2, h4.symm⟩
            · exact Or.inl h4
          · exact Or.inr ⟨w, Relation.TransGen.head hcd h4, h5, h6⟩
    match hm : Run.mapM (buildKid (fun c => (c.toComponent mid pio files : R (Component PD D))) n u) comp.glif.components.vec with
    | none => rw [hm] at h; cases h
    | some (.err e) =>
      rw [hm] at h
      cases h
      obtain ⟨d, hd, hde⟩ := Run.mapM_err hm
      rcases kid d hd _ hde with ⟨t, ht⟩ | ⟨h1, h2⟩
      · cases ht
      · cases h1
        exact Or.inr ⟨rfl, h2⟩
    | some .panic =>
      obtain ⟨d, hd, hde⟩ := Run.mapM_panic hm
      rcases kid d hd _ hde with ⟨t, ht⟩ | ⟨h1, h2⟩
      · cases ht
      · cases h1
    | some (.ok ts) =>
      rw [hm] at h
      cases h
      exact Or.inl ⟨_, rfl⟩

/-- The matrix made of six coefficients is the map they mean. -/
theorem affine_represents (m : Mat6) : Spec.Represents m m.affine := by
  have h : ∀ x : IOF, x.toF64 = Spec.number64 x := fun x => by cases x <;> rfl
  exact ⟨h _, h _, h _, h _, h _, h _⟩

/-- A tree that could be built is the unfolding. -/
theorem buildTree_unfolds {n : Nat} {u : List Str} {c : GlifComponent} {comp : Component PD D}
    {t : Tree (Component PD D)} (hc : c.toComponent mid pio files = .ok comp)
    (h : buildTree (fun c => (c.toComponent mid pio files : R (Component PD D))) n u comp = some (.ok t)) :
    Spec.Unfolds PD mid pio files c t := by
  induction n generalizing u c comp t with
  | zero => cases h
  | succ n ih =>
    rw [buildTree_succ] at h
    match hm : Run.mapM (buildKid (fun c => (c.toComponent mid pio files : R (Component PD D))) n u) comp.glif.components.vec with
    | none => rw [hm] at h; cases h
    | some (.err e) => rw [hm] at h; cases h
    | some .panic => rw [hm] at h; cases h
    | some (.ok ts) =>
      rw [hm] at h
      cases h
      have hf := Run.mapM_ok.1 hm
      obtain ⟨f, g, hcf, hg, rfl⟩ := toComponent_ok.1 hc
      refine .mk f g hcf hg rfl rfl rfl rfl (affine_represents c.m) ?_
      refine hf.imp ?_
      intro d t' hd
      unfold buildKid at hd
      split at hd
      next => cases hd
      next =>
        match hcc : (d.toComponent mid pio files : R (Component PD D)) with
        | .err e => simp only [hcc] at hd; cases hd
        | .panic => simp only [hcc] at hd; cases hd
        | .ok comp' =>
          simp only [hcc, Run.bind_ok] at hd
          exact ih hcc hd

end font

end GP
