import Verif.Spec.Serde
/-! Lemmas about serialisation. -/
open Fl
namespace GP.Serde
open GP.Spec
variable {PD D α β : Type} {pos : Prop} {extra : String → Prop}

/-! ## Structures -/

/-- The fields that were found carry those that were serialised. -/
def Holds (pos : Prop) (extra : String → Prop) (r : Row) (fs : List (String × Val)) : Prop :=
  ∀ (i : Nat) (k : String) (v : Val), fs[i]? = some (k, v) → ∃ w, r.vals[i]? = some (some w) ∧ Carries pos extra v w

theorem filter_key {fs : List (String × Val)} (hn : (fs.map (·.1)).Nodup) {k : String} {v : Val} (h : (k, v) ∈ fs) :
    fs.filter (fun f => f.1 == k) = [(k, v)] := by
  induction fs with
  | nil => cases h
  | cons g fs ih =>
    rw [List.map_cons, List.nodup_cons] at hn
    rcases List.mem_cons.1 h with rfl | h'
    · rw [List.filter_cons_of_pos (by simp)]
      have : fs.filter (fun f => f.1 == k) = [] := by
        rw [List.filter_eq_nil_iff]
        intro f hf he
        exact hn.1 (List.mem_map.2 ⟨f, hf, by simpa using he⟩)
      rw [this]
    · have hne : g.1 ≠ k := fun e => hn.1 (List.mem_map.2 ⟨(k, v), h', e.symm⟩)
      rw [List.filter_cons_of_neg (by simpa using hne)]
      exact ih hn.2 h'

theorem row_named {fs gs : List (String × Val)} {f : String → Val}
    (h1 : ∀ k v, (k, v) ∈ fs → gs.filter (fun g => g.1 == k) = [(k, f k)])
    (h2 : ∀ k v, (k, v) ∈ fs → Carries pos extra v (f k)) :
    ∃ r, (Val.struct gs).row (fs.map (·.1)) = some r ∧ r.named = true ∧ Holds pos extra r fs := by
  refine ⟨⟨true, (fs.map (·.1)).map fun n => (gs.find? fun g => g.1 == n).map (·.2)⟩, ?_, rfl, ?_⟩
  · simp only [Val.row]
    rw [if_pos]
    rw [List.all_eq_true]
    intro n hn
    obtain ⟨⟨k, v⟩, hf, rfl⟩ := List.mem_map.1 hn
    simp only [h1 k v hf, List.length_singleton, Nat.le_refl, decide_true]
  · intro i k v hi
    have hm : (k, v) ∈ fs := List.mem_of_getElem? hi
    refine ⟨f k, ?_, h2 k v hm⟩
    simp only [List.getElem?_map, hi, Option.map_some]
    rw [← List.head?_filter, h1 k v hm]
    rfl

theorem row_ok {fs : List (String × Val)} {w : Val} (names : List String) (hn : names.Nodup) (he : fs.map (·.1) = names)
    (h : Carries pos extra (.struct fs) w) : ∃ r, w.row names = some r ∧ Holds pos extra r fs := by
  subst he
  cases h with
  | same =>
    obtain ⟨r, h1, -, h2⟩ := row_named (pos := pos) (extra := extra) (fs := fs) (gs := fs)
      (f := fun k => ((fs.filter fun g => g.1 == k).map (·.2)).headD .unit)
      (fun k v hm => by simp [filter_key hn hm]) (fun k v hm => by simp [filter_key hn hm]; exact .same v)
    exact ⟨r, h1, h2⟩
  | named f h1 h2 _ =>
    obtain ⟨r, h1, -, h2⟩ := row_named h1 h2
    exact ⟨r, h1, h2⟩
  | @positional _ ws hp hl h =>
    refine ⟨⟨false, ws.map some ++ List.replicate ((fs.map (·.1)).length - ws.length) none⟩, ?_, ?_⟩
    · unfold Val.row
      simp [hl]
    · intro i k v hi
      have hlt : i < ws.length := by
        rw [← hl]
        exact (List.getElem?_eq_some_iff.1 hi).1
      refine ⟨ws[i], ?_, h i k v _ hi (List.getElem?_eq_getElem hlt)⟩
      show (ws.map some ++ _)[i]? = _
      rw [List.getElem?_append_left (by simpa using hlt), List.getElem?_map, List.getElem?_eq_getElem hlt]
      rfl

/-- By name, if names of fields may not be left out. -/
theorem row_named_ok {fs : List (String × Val)} {w : Val} (hn : (fs.map (·.1)).Nodup) (hp : ¬ pos) (h : Carries pos extra (.struct fs) w) :
    ∃ (gs : List (String × Val)) (f : String → Val), w = .struct gs ∧ (∀ k v, (k, v) ∈ fs → gs.filter (fun g => g.1 == k) = [(k, f k)]) ∧
      (∀ k v, (k, v) ∈ fs → Carries pos extra v (f k)) ∧ ∀ k w, (k, w) ∈ gs → (∃ v, (k, v) ∈ fs) ∨ extra k := by
  cases h with
  | same =>
    exact ⟨fs, fun k => ((fs.filter fun g => g.1 == k).map (·.2)).headD .unit, rfl,
      fun k v hm => by simp [filter_key hn hm], fun k v hm => by simp [filter_key hn hm]; exact .same v,
      fun k w h => Or.inl ⟨w, h⟩⟩
  | named f h1 h2 h3 => exact ⟨_, f, rfl, h1, h2, h3⟩
  | positional h => exact absurd h hp

theorem Holds.need {r : Row} {fs : List (String × Val)} (h : Holds pos extra r fs) (i : Nat) {k : String} {v : Val}
    (hi : fs[i]? = some (k, v)) {de : Val → Option α} {a : α} (hd : ∀ w, Carries pos extra v w → de w = some a) :
    r.need i de = some a := by
  obtain ⟨w, h1, h2⟩ := h i k v hi
  unfold Row.need
  rw [h1]
  exact hd w h2

theorem Holds.orElse {r : Row} {fs : List (String × Val)} (h : Holds pos extra r fs) (i : Nat) {k : String} {v : Val} {d : α}
    (hi : fs[i]? = some (k, v)) {de : Val → Option α} {a : α} (hd : ∀ w, Carries pos extra v w → de w = some a) :
    r.orElse i d de = some a := by
  obtain ⟨w, h1, h2⟩ := h i k v hi
  unfold Row.orElse
  rw [h1]
  exact hd w h2

theorem Holds.opt {r : Row} {fs : List (String × Val)} (h : Holds pos extra r fs) (i : Nat) {k : String} {v : Val}
    (hi : fs[i]? = some (k, v)) {de : Val → Option (Option α)} {a : Option α} (hd : ∀ w, Carries pos extra v w → de w = some a) :
    r.opt i de = some a := by
  obtain ⟨w, h1, h2⟩ := h i k v hi
  unfold Row.opt
  rw [h1]
  exact hd w h2

/-! ## Types of the standard library -/

theorem bool_ok : Survives bool := by intro pos extra a w h; cases h; rfl
theorem f32_ok : Survives f32 := by intro pos extra a w h; cases h; rfl
theorem f64_ok : Survives f64 := by intro pos extra a w h; cases h; rfl
theorem char_ok : Survives char := by intro pos extra a w h; cases h; rfl
theorem str_ok : Survives str := by intro pos extra a w h; cases h; rfl
theorem glifString_ok : Survives glifString := str_ok

theorem usize_ok : Survives usize := by
  intro pos extra a w h
  cases h
  show (if 0 ≤ (a : Int) then some (a : Int).toNat else none) = some a
  rw [if_pos (by omega), Int.toNat_natCast]

theorem u64_ok {a : Nat} (ha : a < 2 ^ 64) (w : Val) (h : Carries pos extra (u64.ser a) w) : u64.de w = some a := by
  cases h
  simp only [u64]
  rw [if_pos (by omega), Int.toNat_natCast]

theorem u8_ok : Survives u8 := by
  intro pos extra a w h
  cases h
  simp only [u8]
  have := a.toNat_lt
  rw [if_pos (by omega), Int.toNat_natCast, UInt8.ofNat_toNat]

theorem option_ok' {s : Serde α} {o : Option α} (hs : ∀ a, o = some a → ∀ w, Carries pos extra (s.ser a) w → s.de w = some a)
    (w : Val) (h : Carries pos extra ((option s).ser o) w) : (option s).de w = some o := by
  cases o with
  | none => cases h; rfl
  | some a =>
    have hs := hs a rfl
    change Carries pos extra (.some (s.ser a)) w at h
    cases h with
    | same =>
      show (s.de (s.ser a)).map some = _
      rw [hs _ (.same _)]; rfl
    | some h =>
      show (s.de _).map some = _
      rw [hs _ h]; rfl

theorem option_ok {s : Serde α} (hs : Survives s) : Survives (option s) := fun _ _ _ w h => option_ok' (fun a _ => hs _ _ a) w h

theorem mapM_some {f : α → Option β} {l : List α} {m : List β} (hl : l.length = m.length)
    (h : ∀ (i : Nat) (a : α) (b : β), l[i]? = some a → m[i]? = some b → f a = some b) : l.mapM f = some m := by
  induction l generalizing m with
  | nil =>
    cases m with
    | nil => rfl
    | cons _ _ => cases hl
  | cons a l ih =>
    cases m with
    | nil => cases hl
    | cons b m =>
      rw [List.mapM_cons, h 0 a b rfl rfl, ih (Nat.succ.inj hl) fun i a b ha hb => h (i + 1) a b ha hb]
      rfl

/-- A sequence of serialised values. -/
theorem seq_ok {ser : α → Val} {de : Val → Option β} {l : List α} {m : List β} {w : Val} (h : Carries pos extra (.seq (l.map ser)) w)
    (hl : l.length = m.length) (hd : ∀ (i : Nat) (a : α) (b : β) (w : Val), l[i]? = some a → m[i]? = some b → Carries pos extra (ser a) w → de w = some b) :
    ∃ ws, w = .seq ws ∧ ws.mapM de = some m := by
  cases h with
  | same =>
    refine ⟨_, rfl, mapM_some (by simpa using hl) fun i v b hv hb => ?_⟩
    rw [List.getElem?_map] at hv
    obtain ⟨a, ha, rfl⟩ := Option.map_eq_some_iff.1 hv
    exact hd i a b _ ha hb (.same _)
  | @seq _ ws hlen h =>
    refine ⟨_, rfl, mapM_some (by rw [← hlen]; simpa using hl) fun i v b hv hb => ?_⟩
    have hi : i < l.length := by rw [hl]; exact (List.getElem?_eq_some_iff.1 hb).1
    exact hd i l[i] b _ (List.getElem?_eq_getElem hi) hb (h i _ v (by simp [hi]) hv)

theorem list_ok' {s : Serde α} {l : List α} (hs : ∀ a ∈ l, ∀ w, Carries pos extra (s.ser a) w → s.de w = some a)
    (w : Val) (h : Carries pos extra ((list s).ser l) w) : (list s).de w = some l := by
  obtain ⟨ws, rfl, h'⟩ := seq_ok (de := s.de) (m := l) h rfl fun i a b w ha hb hc => by
    rw [ha] at hb
    cases hb
    exact hs a (List.mem_of_getElem? ha) w hc
  exact h'

theorem list_ok {s : Serde α} (hs : Survives s) : Survives (list s) := fun _ _ _ w h => list_ok' (fun a _ => hs _ _ a) w h

theorem dedup_nodup [DecidableEq α] (l a : List α) (h : (a ++ l).Nodup) :
    l.foldl (fun a x => if x ∈ a then a else a ++ [x]) a = a ++ l := by
  induction l generalizing a with
  | nil => simp
  | cons x l ih =>
    have hx : x ∉ a := fun hm => by
      rw [List.nodup_append] at h
      exact h.2.2 x hm x (by simp) rfl
    rw [List.foldl_cons, if_neg hx, ih (a ++ [x]) (by simpa using h)]
    simp

theorem set_ok [DecidableEq α] {s : Serde α} (hs : Survives s) {l : List α} (hn : l.Nodup) (w : Val)
    (h : Carries pos extra ((set s).ser l) w) : (set s).de w = some l := by
  obtain ⟨ws, rfl, h'⟩ := seq_ok (de := s.de) (m := l) h rfl fun i a b w ha hb hc => by
    rw [ha] at hb
    cases hb
    exact hs _ _ a w hc
  show (ws.mapM s.de).map _ = _
  rw [h', Option.map_some, dedup_nodup l [] (by simpa using hn)]
  rfl

theorem pair_ok {s : Serde α} {t : Serde β} (hs : Survives s) (ht : Survives t) : Survives (pair s t) := by
  rintro pos extra ⟨a, b⟩ w h
  change Carries pos extra (.seq [s.ser a, t.ser b]) w at h
  cases h with
  | same =>
    show (do some (← s.de (s.ser a), ← t.de (t.ser b))) = _
    rw [hs pos extra _ _ (.same _), ht pos extra _ _ (.same _)]; rfl
  | @seq _ ws hl h =>
    match ws, hl with
    | [v, w], _ =>
      show (do some (← s.de v, ← t.de w)) = _
      rw [hs _ _ _ _ (h 0 _ _ rfl rfl), ht _ _ _ _ (h 1 _ _ rfl rfl)]; rfl

theorem enum_ok {names : List (String × α)} {name : α → String} (h : ∀ a, names.find? (fun x => x.1 == name a) = some (name a, a)) :
    Survives (enum names name) := by
  intro pos extra a w hc
  have e : (enum names name).ser a = .variant (name a) .unit := rfl
  rw [e] at hc
  have : w = .variant (name a) .unit := by
    cases hc with
    | same => rfl
    | variant h => cases h; rfl
  rw [this]
  show (names.find? fun x => x.1 == name a).map (·.2) = some a
  rw [h a]
  rfl

/-! ## Types of the library -/

theorem pointType_ok : Survives pointType := enum_ok fun a => by cases a <;> rfl

theorem whichHandle_ok : Survives whichHandle := enum_ok fun a => by cases a <;> rfl

theorem variant_inv {n : String} {v w : Val} (h : Carries pos extra (.variant n v) w) : ∃ u, w = .variant n u ∧ Carries pos extra v u := by
  cases h with
  | same => exact ⟨_, rfl, .same _⟩
  | variant h => exact ⟨_, rfl, h⟩

theorem unit_inv {w : Val} (h : Carries pos extra .unit w) : w = .unit := by cases h; rfl

/-- Sequences of values that have no parts. -/
theorem leaves_inv {vs : List Val} {w : Val} (hv : ∀ v ∈ vs, ∀ u, Carries pos extra v u → u = v) (h : Carries pos extra (.seq vs) w) :
    w = .seq vs := by
  cases h with
  | same => rfl
  | @seq _ ws hl h =>
    congr 1
    refine List.ext_getElem? fun i => ?_
    rcases Nat.lt_or_ge i vs.length with hi | hi
    · rw [List.getElem?_eq_getElem hi, List.getElem?_eq_getElem (hl ▸ hi)]
      exact congrArg some (hv vs[i] (List.getElem_mem hi) _ (h i _ _ (List.getElem?_eq_getElem hi) (List.getElem?_eq_getElem (hl ▸ hi))))
    · rw [List.getElem?_eq_none hi, List.getElem?_eq_none (hl ▸ hi)]

theorem f32_leaf {x : F32} {u : Val} (h : Carries pos extra (.f32 x) u) : u = .f32 x := by cases h; rfl
theorem f64_leaf {x : F64} {u : Val} (h : Carries pos extra (.f64 x) u) : u = .f64 x := by cases h; rfl

theorem handle_ok : Survives handle := by
  intro pos extra a w hc
  cases a with
  | colocated =>
    obtain ⟨u, rfl, hu⟩ := variant_inv hc
    rw [unit_inv hu]; rfl
  | «at» x y =>
    obtain ⟨u, rfl, hu⟩ := variant_inv hc
    rw [leaves_inv (by
      intro v hv u h
      simp only [List.mem_cons, List.not_mem_nil, or_false] at hv
      rcases hv with rfl | rfl <;> exact f32_leaf h) hu]
    rfl

theorem glifPoint_ok {iof : Serde IOF} (hi : Survives iof) : Survives (glifPoint iof) := by
  intro pos extra a w hc
  obtain ⟨r, hr, hh⟩ := row_ok ["x", "y", "smooth", "name", "ptype"] (by decide) rfl hc
  simp only [glifPoint, hr, Option.bind_eq_bind, Option.bind_some,
    hh.need 0 rfl (hi _ _ _),
    hh.need 1 rfl (hi _ _ _),
    hh.need 2 rfl (bool_ok _ _ _),
    hh.opt 3 rfl ((option_ok str_ok) _ _ _),
    hh.need 4 rfl (pointType_ok _ _ _)]

theorem point_ok {pd : Serde PD} (hp : Survives pd) : Survives (point pd) := by
  intro pos extra a w hc
  obtain ⟨r, hr, hh⟩ := row_ok ["x", "y", "a", "b", "name", "ptype", "smooth", "data"] (by decide) rfl hc
  simp only [point, hr, Option.bind_eq_bind, Option.bind_some,
    hh.need 0 rfl (f32_ok _ _ _),
    hh.need 1 rfl (f32_ok _ _ _),
    hh.orElse 2 rfl (handle_ok _ _ _),
    hh.orElse 3 rfl (handle_ok _ _ _),
    hh.orElse 4 rfl ((option_ok str_ok) _ _ _),
    hh.need 5 rfl (pointType_ok _ _ _),
    hh.orElse 6 rfl (bool_ok _ _ _),
    hh.orElse 7 rfl ((option_ok hp) _ _ _)]

theorem qpoint_ok {pd : Serde PD} (hp : Survives pd) : Survives (qpoint pd) := by
  intro pos extra a w hc
  obtain ⟨r, hr, hh⟩ := row_ok ["x", "y", "a", "name", "ptype", "smooth", "data"] (by decide) rfl hc
  simp only [qpoint, hr, Option.bind_eq_bind, Option.bind_some,
    hh.need 0 rfl (f32_ok _ _ _),
    hh.need 1 rfl (f32_ok _ _ _),
    hh.orElse 2 rfl (handle_ok _ _ _),
    hh.orElse 3 rfl ((option_ok str_ok) _ _ _),
    hh.need 4 rfl (pointType_ok _ _ _),
    hh.orElse 5 rfl (bool_ok _ _ _),
    hh.orElse 6 rfl ((option_ok hp) _ _ _)]

theorem hyperPointType_ok : Survives hyperPointType := enum_ok fun a => by cases a <;> rfl

theorem hyperPoint_ok {pd : Serde PD} (hp : Survives pd) : Survives (hyperPoint pd) := by
  intro pos extra a w hc
  obtain ⟨r, hr, hh⟩ := row_ok ["x", "y", "a", "b", "kind", "smooth", "data"] (by decide) rfl hc
  simp only [hyperPoint, hr, Option.bind_eq_bind, Option.bind_some,
    hh.need 0 rfl (f32_ok _ _ _),
    hh.need 1 rfl (f32_ok _ _ _),
    hh.need 2 rfl (handle_ok _ _ _),
    hh.need 3 rfl (handle_ok _ _ _),
    hh.need 4 rfl (hyperPointType_ok _ _ _),
    hh.need 5 rfl (bool_ok _ _ _),
    hh.opt 6 rfl ((option_ok hp) _ _ _)]

theorem color_ok {iof : Serde IOF} (hi : Survives iof) : Survives (color iof) := by
  intro pos extra a w hc
  obtain ⟨r, hr, hh⟩ := row_ok ["r", "g", "b", "a"] (by decide) rfl hc
  simp only [color, hr, Option.bind_eq_bind, Option.bind_some,
    hh.need 0 rfl (hi _ _ _),
    hh.need 1 rfl (hi _ _ _),
    hh.need 2 rfl (hi _ _ _),
    hh.need 3 rfl (hi _ _ _)]

theorem anchorType_ok : Survives anchorType := enum_ok fun a => by cases a <;> rfl

theorem anchor_ok {F : Foreign PD D} (hF : ForeignOk F) : Survives (anchor F) := by
  intro pos extra a w hc
  obtain ⟨r, hr, hh⟩ := row_ok ["x", "y", "class", "data", "atype"] (by decide) rfl hc
  simp only [anchor, hr, Option.bind_eq_bind, Option.bind_some,
    hh.need 0 rfl (f32_ok _ _ _),
    hh.need 1 rfl (f32_ok _ _ _),
    hh.orElse 2 rfl ((option_ok str_ok) _ _ _),
    hh.orElse 3 rfl (hF.pd _ _ _),
    hh.orElse 4 rfl (anchorType_ok _ _ _)]

theorem glifAnchor_ok {iof : Serde IOF} (hi : Survives iof) : Survives (glifAnchor iof) := by
  intro pos extra a w hc
  obtain ⟨r, hr, hh⟩ := row_ok ["x", "y", "class"] (by decide) rfl hc
  simp only [glifAnchor, hr, Option.bind_eq_bind, Option.bind_some,
    hh.need 0 rfl (hi _ _ _),
    hh.need 1 rfl (hi _ _ _),
    hh.opt 2 rfl ((option_ok glifString_ok) _ _ _)]

theorem guidelinePoint_ok : Survives guidelinePoint := by
  intro pos extra a w hc
  obtain ⟨r, hr, hh⟩ := row_ok ["x", "y"] (by decide) rfl hc
  simp only [guidelinePoint, hr, Option.bind_eq_bind, Option.bind_some,
    hh.need 0 rfl (f32_ok _ _ _),
    hh.need 1 rfl (f32_ok _ _ _)]

theorem guideline_ok {F : Foreign PD D} (hF : ForeignOk F) : Survives (guideline F) := by
  intro pos extra a w hc
  obtain ⟨r, hr, hh⟩ := row_ok ["at", "angle", "name", "color", "identifier", "data"] (by decide) rfl hc
  simp only [guideline, hr, Option.bind_eq_bind, Option.bind_some,
    hh.need 0 rfl (guidelinePoint_ok _ _ _),
    hh.need 1 rfl (hF.iof _ _ _),
    hh.opt 2 rfl ((option_ok str_ok) _ _ _),
    hh.opt 3 rfl ((option_ok (color_ok hF.iof)) _ _ _),
    hh.opt 4 rfl ((option_ok str_ok) _ _ _),
    hh.need 5 rfl (hF.pd _ _ _)]

theorem glifComponent_ok {F : Foreign PD D} (hF : ForeignOk F) : Survives (glifComponent F) := by
  intro pos extra a w hc
  obtain ⟨r, hr, hh⟩ := row_ok ["base", "filename", "xScale", "xyScale", "yxScale", "yScale", "xOffset", "yOffset", "identifier"] (by decide) rfl hc
  simp only [glifComponent, hr, Option.bind_eq_bind, Option.bind_some,
    hh.need 0 rfl (str_ok _ _ _),
    hh.opt 1 rfl ((option_ok hF.path) _ _ _),
    hh.need 2 rfl (hF.iof _ _ _),
    hh.need 3 rfl (hF.iof _ _ _),
    hh.need 4 rfl (hF.iof _ _ _),
    hh.need 5 rfl (hF.iof _ _ _),
    hh.need 6 rfl (hF.iof _ _ _),
    hh.need 7 rfl (hF.iof _ _ _),
    hh.opt 8 rfl ((option_ok str_ok) _ _ _)]

theorem glifComponents_ok {F : Foreign PD D} (hF : ForeignOk F) {a : GlifComponents} (ha : a.uniques.Nodup) (w : Val)
    (hc : Carries pos extra ((glifComponents F).ser a) w) : (glifComponents F).de w = some a := by
  obtain ⟨r, hr, hh⟩ := row_ok ["root", "vec", "uniques"] (by decide) rfl hc
  simp only [glifComponents, hr, Option.bind_eq_bind, Option.bind_some,
    hh.need 0 rfl (str_ok _ _ _),
    hh.need 1 rfl (list_ok (glifComponent_ok hF) _ _ _),
    hh.need 2 rfl (set_ok str_ok ha)]

theorem glifImage_ok {iof : Serde IOF} (hi : Survives iof) : Survives (glifImage iof) := by
  intro pos extra a w hc
  obtain ⟨r, hr, hh⟩ := row_ok ["filename", "xScale", "xyScale", "yxScale", "yScale", "xOffset", "yOffset", "identifier", "color"] (by decide) rfl hc
  simp only [glifImage, hr, Option.bind_eq_bind, Option.bind_some,
    hh.need 0 rfl (str_ok _ _ _),
    hh.need 1 rfl (hi _ _ _),
    hh.need 2 rfl (hi _ _ _),
    hh.need 3 rfl (hi _ _ _),
    hh.need 4 rfl (hi _ _ _),
    hh.need 5 rfl (hi _ _ _),
    hh.need 6 rfl (hi _ _ _),
    hh.opt 7 rfl ((option_ok str_ok) _ _ _),
    hh.opt 8 rfl ((option_ok (color_ok hi)) _ _ _)]

theorem componentRect_ok : Survives componentRect := by
  intro pos extra a w hc
  obtain ⟨r, hr, hh⟩ := row_ok ["minx", "miny", "maxx", "maxy", "name"] (by decide) rfl hc
  simp only [componentRect, hr, Option.bind_eq_bind, Option.bind_some,
    hh.need 0 rfl (f32_ok _ _ _),
    hh.need 1 rfl (f32_ok _ _ _),
    hh.need 2 rfl (f32_ok _ _ _),
    hh.need 3 rfl (f32_ok _ _ _),
    hh.need 4 rfl (str_ok _ _ _)]

theorem lib_ok {F : Foreign PD D} (hF : ForeignOk F) {l : Lib D} {v : Val} (hv : serLib F.dict l = some v) (w : Val)
    (hc : Carries pos extra v w) : deLib F.dict w = some l := by
  cases l with
  | none =>
    cases hv
    obtain ⟨u, rfl, hu⟩ := variant_inv hc
    rw [unit_inv hu]; rfl
  | plist d =>
    cases hv
    obtain ⟨u, rfl, hu⟩ := variant_inv hc
    simp only [deLib, show ¬ ("Plist" = "None") by decide, if_false, if_true, hF.dict _ _ _ _ hu, Option.map_some]
  | xml e => cases hv

theorem glif_ok {F : Foreign PD D} (hF : ForeignOk F) {g : Glif PD D} (hg : InRange g.width g.components.uniques) {v : Val}
    (hv : serGlif F g = some v) (w : Val) (hc : Carries pos extra v w) : deGlif F w = some { g with filename := none } := by
  unfold serGlif at hv
  cases hl : serLib F.dict g.lib with
  | none => rw [hl] at hv; cases hv
  | some lv =>
    rw [hl] at hv
    cases hv
    obtain ⟨r, hr, hh⟩ := row_ok ["outline", "anchors", "components", "guidelines", "images", "width", "unicode", "name", "note", "lib"]
      (by decide) rfl hc
    simp only [deGlif, hr, Option.bind_eq_bind, Option.bind_some,
      hh.opt 0 rfl (option_ok (list_ok (list_ok (point_ok hF.pd))) _ _ _),
      hh.need 1 rfl (list_ok (anchor_ok hF) _ _ _),
      hh.need 2 rfl (glifComponents_ok hF hg.uniques),
      hh.need 3 rfl (list_ok (guideline_ok hF) _ _ _),
      hh.need 4 rfl (list_ok (glifImage_ok hF.iof) _ _ _),
      hh.opt 5 rfl (option_ok' fun n hn => u64_ok (hg.width n hn)),
      hh.need 6 rfl (list_ok char_ok _ _ _),
      hh.need 7 rfl (str_ok _ _ _),
      hh.opt 8 rfl (option_ok str_ok _ _ _),
      hh.need 9 rfl (lib_ok hF hl)]

theorem affine_ok : Survives affine := by
  intro pos extra a w hc
  rw [leaves_inv (vs := [f64.ser a.a, f64.ser a.b, f64.ser a.c, f64.ser a.d, f64.ser a.e, f64.ser a.f]) (by
      intro v hv u h
      simp only [List.mem_cons, List.not_mem_nil, or_false] at hv
      rcases hv with rfl | rfl | rfl | rfl | rfl | rfl <;> exact f64_leaf h) hc]
  rfl

theorem component_ok {F : Foreign PD D} (hF : ForeignOk F) {c : Component PD D} (hg : InRange c.glif.width c.glif.components.uniques) {v : Val}
    (hv : serComponent F c = some v) (w : Val) (hc : Carries pos extra v w) :
    deComponent F w = some { c with glif := { c.glif with filename := none } } := by
  unfold serComponent at hv
  cases hl : serGlif F c.glif with
  | none => rw [hl] at hv; cases hv
  | some lv =>
    rw [hl] at hv
    cases hv
    obtain ⟨r, hr, hh⟩ := row_ok ["glif", "matrix"] (by decide) rfl hc
    simp only [deComponent, hr, Option.bind_eq_bind, Option.bind_some, hh.need 0 rfl (glif_ok hF hg hl),
      hh.need 1 rfl (affine_ok _ _ _)]

theorem interpolation_ok : Survives interpolation := enum_ok fun a => by cases a <;> rfl

theorem join_ok : Survives join := enum_ok fun a => by cases a <;> rfl

theorem cap_ok : Survives cap := enum_ok fun a => by cases a <;> rfl

theorem vwsHandle_ok : Survives vwsHandle := by
  intro pos extra a w hc
  obtain ⟨r, hr, hh⟩ := row_ok ["left_offset", "right_offset", "tangent_offset", "interpolation"] (by decide) rfl hc
  simp only [vwsHandle, hr, Option.bind_eq_bind, Option.bind_some,
    hh.need 0 rfl (f64_ok _ _ _),
    hh.need 1 rfl (f64_ok _ _ _),
    hh.need 2 rfl (f64_ok _ _ _),
    hh.need 3 rfl (interpolation_ok _ _ _)]

theorem vws_ok : Survives vws := by
  intro pos extra a w hc
  obtain ⟨r, hr, hh⟩ := row_ok ["handles", "join_type", "cap_start_type", "cap_end_type", "remove_internal", "remove_external"] (by decide) rfl hc
  simp only [vws, hr, Option.bind_eq_bind, Option.bind_some,
    hh.need 0 rfl (list_ok vwsHandle_ok _ _ _),
    hh.need 1 rfl (join_ok _ _ _),
    hh.need 2 rfl (cap_ok _ _ _),
    hh.need 3 rfl (cap_ok _ _ _),
    hh.need 4 rfl (bool_ok _ _ _),
    hh.need 5 rfl (bool_ok _ _ _)]

theorem dashCull_ok : Survives dashCull := by
  intro pos extra a w hc
  obtain ⟨r, hr, hh⟩ := row_ok ["width", "area_cutoff"] (by decide) rfl hc
  simp only [dashCull, hr, Option.bind_eq_bind, Option.bind_some,
    hh.need 0 rfl (f32_ok _ _ _),
    hh.need 1 rfl (f32_ok _ _ _)]

theorem dash_ok : Survives dash := by
  intro pos extra a w hc
  obtain ⟨r, hr, hh⟩ := row_ok ["stroke_width", "cull", "dash_desc", "include_last_path", "paint_join", "paint_cap"] (by decide) rfl hc
  simp only [dash, hr, Option.bind_eq_bind, Option.bind_some,
    hh.need 0 rfl (f32_ok _ _ _),
    hh.opt 1 rfl (option_ok dashCull_ok _ _ _),
    hh.need 2 rfl (list_ok f32_ok _ _ _),
    hh.need 3 rfl (bool_ok _ _ _),
    hh.need 4 rfl (u8_ok _ _ _),
    hh.need 5 rfl (u8_ok _ _ _)]

theorem copies_ok : Survives copies := enum_ok fun a => by cases a <;> rfl

theorem subdivide_ok : Survives subdivide := by
  intro pos extra a w hc
  cases a with
  | off =>
    obtain ⟨u, rfl, hu⟩ := variant_inv hc
    rw [unit_inv hu]; rfl
  | simple n =>
    obtain ⟨u, rfl, hu⟩ := variant_inv hc
    have h := usize_ok _ _ _ _ hu
    simp only [subdivide, show ¬ ("Simple" = "Off") by decide, if_false, if_true, h, Option.map_some]
  | angle x =>
    obtain ⟨u, rfl, hu⟩ := variant_inv hc
    have h := f64_ok _ _ _ _ hu
    simp only [subdivide, show ¬ ("Angle" = "Off") by decide, show ¬ ("Angle" = "Simple") by decide, if_false, if_true, h, Option.map_some]

theorem culling_ok : Survives culling := by
  intro pos extra a w hc
  cases a with
  | off =>
    obtain ⟨u, rfl, hu⟩ := variant_inv hc
    rw [unit_inv hu]; rfl
  | removeOverlapping =>
    obtain ⟨u, rfl, hu⟩ := variant_inv hc
    rw [unit_inv hu]; rfl
  | eraseOverlapping x y =>
    obtain ⟨u, rfl, hu⟩ := variant_inv hc
    rw [leaves_inv (by
      intro v hv u h
      simp only [List.mem_cons, List.not_mem_nil, or_false] at hv
      rcases hv with rfl | rfl <;> exact f64_leaf h) hu]
    rfl

theorem stretch_ok : Survives stretch := enum_ok fun a => by cases a <;> rfl

theorem hyperInner_ok {pd : Serde PD} (hp : Survives pd) : Survives (hyperInner pd) := by
  intro pos extra a w hc
  obtain ⟨r, hr, hh⟩ := row_ok ["points", "open"] (by decide) rfl hc
  simp only [hyperInner, hr, Option.bind_eq_bind, Option.bind_some,
    hh.need 0 rfl (list_ok (hyperPoint_ok hp) _ _ _),
    hh.need 1 rfl (bool_ok _ _ _)]

theorem inner_ok {pd : Serde PD} (hp : Survives pd) : Survives (inner pd) := by
  intro pos extra a w hc
  cases a with
  | cubic c =>
    obtain ⟨u, rfl, hu⟩ := variant_inv hc
    have h := list_ok (point_ok hp) _ _ _ _ hu
    simp only [inner, if_true, h, Option.map_some]
  | quad c =>
    obtain ⟨u, rfl, hu⟩ := variant_inv hc
    have h := list_ok (qpoint_ok hp) _ _ _ _ hu
    simp only [inner, show ¬ ("Quad" = "Cubic") by decide, if_false, if_true, h, Option.map_some]
  | hyper c =>
    obtain ⟨u, rfl, hu⟩ := variant_inv hc
    have h := hyperInner_ok hp _ _ _ _ hu
    simp only [inner, show ¬ ("Hyper" = "Cubic") by decide, show ¬ ("Hyper" = "Quad") by decide, if_false, if_true, h, Option.map_some]

theorem layerOperation_ok : Survives layerOperation := enum_ok fun a => by cases a <;> rfl

theorem mfekPointData_ok : Survives mfekPointData := by
  intro pos extra a w hc
  obtain ⟨x, y, z⟩ := a
  obtain ⟨u, rfl, hu⟩ := variant_inv hc
  obtain ⟨r, hr, hh⟩ := row_ok ["fixed", "format", "right"] (by decide) rfl hu
  simp only [mfekPointData, if_true, hr, Option.bind_eq_bind, Option.bind_some, hh.need 0 rfl (bool_ok _ _ _),
    hh.need 1 rfl (bool_ok _ _ _), hh.need 2 rfl (bool_ok _ _ _)]

/-! ## Values within values -/

theorem depth_mem {vs : List Val} {v : Val} (h : v ∈ vs) : v.depth ≤ depths vs := by
  induction vs with
  | nil => cases h
  | cons u vs ih =>
    simp only [depths]
    rcases List.mem_cons.1 h with rfl | h
    · omega
    · have := ih h; omega

theorem depth_field {fs : List (String × Val)} {k : String} {v : Val} (h : (k, v) ∈ fs) : v.depth ≤ depthFields fs := by
  induction fs with
  | nil => cases h
  | cons u fs ih =>
    obtain ⟨l, u⟩ := u
    simp only [depthFields]
    rcases List.mem_cons.1 h with e | h
    · cases e; omega
    · have := ih h; omega

theorem depths_le {vs : List Val} {n : Nat} (h : ∀ v ∈ vs, v.depth ≤ n) : depths vs ≤ n := by
  induction vs with
  | nil => simp [depths]
  | cons v vs ih =>
    simp only [depths]
    have := h v List.mem_cons_self
    have := ih fun u hu => h u (List.mem_cons_of_mem _ hu)
    omega

theorem depthFields_le {fs : List (String × Val)} {n : Nat} (h : ∀ k v, (k, v) ∈ fs → v.depth ≤ n) : depthFields fs ≤ n := by
  induction fs with
  | nil => simp [depthFields]
  | cons f fs ih =>
    obtain ⟨k, v⟩ := f
    simp only [depthFields]
    have := h k v List.mem_cons_self
    have := ih fun k u hu => h k u (List.mem_cons_of_mem _ hu)
    omega

theorem Carries.depth {v w : Val} (h : Carries pos extra v w) : v.depth ≤ w.depth := by
  induction h with
  | same => exact Nat.le_refl _
  | some _ ih => simp only [Val.depth]; omega
  | variant _ ih => simp only [Val.depth]; omega
  | @seq vs ws hl _ ih =>
    simp only [Val.depth]
    refine Nat.succ_le_succ (depths_le fun v hv => ?_)
    obtain ⟨i, hi, rfl⟩ := List.getElem_of_mem hv
    exact Nat.le_trans (ih i _ _ (List.getElem?_eq_getElem hi) (List.getElem?_eq_getElem (hl ▸ hi))) (depth_mem (List.getElem_mem _))
  | named f h1 _ _ ih =>
    simp only [Val.depth]
    refine Nat.succ_le_succ (depthFields_le fun k v hv => ?_)
    refine Nat.le_trans (ih k v hv) (depth_field (k := k) ?_)
    exact (List.mem_filter.1 (h1 k v hv ▸ List.mem_singleton.2 rfl)).1
  | @positional fs ws _ hl _ ih =>
    simp only [Val.depth]
    refine Nat.succ_le_succ (depthFields_le fun k v hv => ?_)
    obtain ⟨i, hi, he⟩ := List.getElem_of_mem hv
    exact Nat.le_trans (ih i k v _ (by rw [List.getElem?_eq_getElem hi, he]) (List.getElem?_eq_getElem (hl ▸ hi))) (depth_mem (List.getElem_mem _))

/-! ## Editor contours -/

theorem pap_ok {C : Type} {de : Val → Option C} {d : PapContour C} {ser : C → Val} (w : Val)
    (hd : ∀ c ∈ d.pattern, ∀ w, Carries pos extra (ser c) w → de w = some c)
    (hc : Carries pos extra (serPap d (.seq (d.pattern.map ser))) w) : dePap de w = some d := by
  obtain ⟨r, hr, hh⟩ := row_ok ["pattern", "copies", "subdivide", "is_vertical", "stretch", "spacing", "simplify", "normal_offset", "tangent_offset", "pattern_scale", "center_pattern", "prevent_overdraw", "two_pass_culling", "reverse_path", "reverse_culling", "warp_pattern", "split_path"] (by decide) rfl hc
  have h0 : r.need 0 (deSeq de) = some d.pattern := by
    refine hh.need 0 rfl fun w hw => ?_
    obtain ⟨ws, rfl, h'⟩ := seq_ok (de := de) (m := d.pattern) hw rfl fun i a b w ha hb hc => by
      rw [ha] at hb
      cases hb
      exact hd a (List.mem_of_getElem? ha) w hc
    exact h'
  simp only [dePap, hr, Option.bind_eq_bind, Option.bind_some, h0,
    hh.need 1 rfl (copies_ok _ _ _),
    hh.need 2 rfl (subdivide_ok _ _ _),
    hh.need 3 rfl (bool_ok _ _ _),
    hh.need 4 rfl (stretch_ok _ _ _),
    hh.need 5 rfl (f64_ok _ _ _),
    hh.need 6 rfl (bool_ok _ _ _),
    hh.need 7 rfl (f64_ok _ _ _),
    hh.need 8 rfl (f64_ok _ _ _),
    hh.need 9 rfl (pair_ok f64_ok f64_ok _ _ _),
    hh.need 10 rfl (bool_ok _ _ _),
    hh.need 11 rfl (culling_ok _ _ _),
    hh.need 12 rfl (bool_ok _ _ _),
    hh.need 13 rfl (bool_ok _ _ _),
    hh.need 14 rfl (bool_ok _ _ _),
    hh.need 15 rfl (bool_ok _ _ _),
    hh.need 16 rfl (bool_ok _ _ _)]

theorem serContours_eq (pd : Serde PD) (cs : List (MContour PD)) : serContours pd cs = cs.map (serContour pd) := by
  induction cs with
  | nil => simp [serContours]
  | cons c cs ih => simp [serContours, ih]

theorem deContour_ok {pd : Serde PD} (hp : Survives pd) (n : Nat) (c : MContour PD) (hn : (serContour pd c).depth ≤ n) (w : Val)
    (hc : Carries pos extra (serContour pd c) w) : deContour pd n w = some c := by
  induction n generalizing c w with
  | zero =>
    obtain ⟨i, o⟩ := c
    simp only [serContour, Val.depth] at hn
    omega
  | succ n ih =>
    obtain ⟨i, o⟩ := c
    simp only [serContour] at hn hc
    obtain ⟨r, hr, hh⟩ := row_ok ["inner", "operation"] (by decide) rfl hc
    simp only [deContour, hr, Option.bind_eq_bind, Option.bind_some, hh.need 0 rfl (inner_ok hp _ _ _)]
    rw [hh.opt 1 rfl (a := o)]
    · rfl
    intro w hw
    cases o with
    | none => simp only [serOptOp] at hw; cases hw; rfl
    | some o =>
      simp only [serOptOp] at hw
      obtain ⟨u, rfl, hu⟩ : ∃ u, w = .some u ∧ Carries pos extra (serOp pd o) u := by
        cases hw with
        | same => exact ⟨_, rfl, .same _⟩
        | some h => exact ⟨_, rfl, h⟩
      show (deOp (deContour pd n) u).map some = some (some o)
      have hd : (serOp pd o).depth < n + 1 := by
        have h1 := depth_field (fs := [("inner", (inner pd).ser i), ("operation", serOptOp pd (some o))])
          (k := "operation") (v := serOptOp pd (some o)) (by simp)
        simp only [serOptOp, Val.depth] at h1 hn
        omega
      have : deOp (deContour pd n) u = some o := by
        cases o with
        | vws d =>
          simp only [serOp] at hu
          obtain ⟨u, rfl, hu'⟩ := variant_inv hu
          obtain ⟨r, hr, hh⟩ := row_ok ["data"] (by decide) rfl hu'
          simp only [deOp, hr, Option.bind_eq_bind, Option.bind_some, if_true, hh.need 0 rfl (vws_ok _ _ _), Option.map_some]
        | dash d =>
          simp only [serOp] at hu
          obtain ⟨u, rfl, hu'⟩ := variant_inv hu
          obtain ⟨r, hr, hh⟩ := row_ok ["data"] (by decide) rfl hu'
          simp only [deOp, hr, Option.bind_eq_bind, Option.bind_some, if_true, hh.need 0 rfl (dash_ok _ _ _), Option.map_some,
            show ¬ ("DashAlongPath" = "VariableWidthStroke") by decide, show ¬ ("DashAlongPath" = "PatternAlongPath") by decide, if_false]
        | pap d =>
          simp only [serOp, serContours_eq] at hu hd
          obtain ⟨u, rfl, hu'⟩ := variant_inv hu
          obtain ⟨r, hr, hh⟩ := row_ok ["data"] (by decide) rfl hu'
          have := hh.need 0 rfl (de := dePap (deContour pd n)) (a := d) fun w hw => pap_ok w (fun c hm w hw => ih c (by
            simp only [Val.depth] at hd
            have h1 := depth_field (fs := [("data", serPap d (.seq (d.pattern.map (serContour pd))))]) (k := "data") List.mem_cons_self
            have h2 : (Val.seq (d.pattern.map (serContour pd))).depth < (serPap d (.seq (d.pattern.map (serContour pd)))).depth := by
              unfold serPap
              generalize (Val.seq (d.pattern.map (serContour pd))) = v
              simp only [Val.depth, depthFields]
              omega
            have h3 : (serContour pd c).depth ≤ depths (d.pattern.map (serContour pd)) := depth_mem (List.mem_map.2 ⟨c, hm, rfl⟩)
            simp only [Val.depth] at h2
            omega) w hw) hw
          simp only [deOp, hr, Option.bind_eq_bind, Option.bind_some, if_true, this, Option.map_some,
            show ¬ ("PatternAlongPath" = "VariableWidthStroke") by decide, if_false]
      rw [this]; rfl

theorem contour_ok {pd : Serde PD} (hp : Survives pd) : Survives (contour pd) :=
  fun _ _ c w hc => deContour_ok hp w.depth c (Carries.depth hc) w hc

theorem layer_ok {F : Foreign PD D} (hF : ForeignOk F) : Survives (layer F) := by
  intro pos extra a w hc
  obtain ⟨r, hr, hh⟩ := row_ok ["name", "visible", "color", "outline", "operation", "images"] (by decide) rfl hc
  simp only [layer, hr, Option.bind_eq_bind, Option.bind_some,
    hh.need 0 rfl (str_ok _ _ _),
    hh.need 1 rfl (bool_ok _ _ _),
    hh.opt 2 rfl (option_ok (color_ok hF.iof) _ _ _),
    hh.need 3 rfl (list_ok (contour_ok hF.pd) _ _ _),
    hh.opt 4 rfl (option_ok layerOperation_ok _ _ _),
    hh.need 5 rfl (list_ok (pair_ok (glifImage_ok hF.iof) affine_ok) _ _ _)]

/-! ## Editor glyphs -/

/-- Fields by name, when the structure knows one more that was not serialised. -/
theorem row_more {fs : List (String × Val)} {w : Val} (names : List String) (m : String) (hn : names.Nodup) (he : fs.map (·.1) = names)
    (hm : m ∉ names) (hp : ¬ pos) (hx : ¬ extra m) (h : Carries pos extra (.struct fs) w) :
    ∃ r, w.row (names ++ [m]) = some r ∧ r.named = true ∧ Holds pos extra r fs ∧ r.vals[names.length]? = some none := by
  subst he
  obtain ⟨gs, f, rfl, h1, h2, h3⟩ := row_named_ok hn hp h
  have hz : gs.filter (fun g => g.1 == m) = [] := by
    rw [List.filter_eq_nil_iff]
    rintro ⟨k, u⟩ hg he
    have he : k = m := by simpa using he
    subst he
    rcases h3 k u hg with ⟨v, hv⟩ | hk
    · exact hm (List.mem_map.2 ⟨_, hv, rfl⟩)
    · exact hx hk
  refine ⟨⟨true, (fs.map (·.1) ++ [m]).map fun n => (gs.find? fun g => g.1 == n).map (·.2)⟩, ?_, rfl, ?_, ?_⟩
  · simp only [Val.row]
    rw [if_pos]
    rw [List.all_eq_true]
    intro n hn
    rcases List.mem_append.1 hn with hn | hn
    · obtain ⟨⟨k, v⟩, hf, rfl⟩ := List.mem_map.1 hn
      simp only [h1 k v hf, List.length_singleton, Nat.le_refl, decide_true]
    · rw [List.mem_singleton.1 hn, hz]
      rfl
  · intro i k v hi
    have hm : (k, v) ∈ fs := List.mem_of_getElem? hi
    refine ⟨f k, ?_, h2 k v hm⟩
    have hlt : i < (fs.map (·.1)).length := by
      rw [List.length_map]
      exact (List.getElem?_eq_some_iff.1 hi).1
    simp only [List.getElem?_map, List.getElem?_append_left hlt, hi, Option.map_some]
    rw [← List.head?_filter, h1 k v hm]
    rfl
  · simp only [List.getElem?_map, List.getElem?_append_right (Nat.le_refl _), Nat.sub_self, List.getElem?_cons_zero, Option.map_some]
    rw [← List.head?_filter, hz]
    rfl

theorem entry_ok {G G' : Type} {F : Foreign PD D} (hF : ForeignOk F) {e : HistoryEntry PD G} {ser : G → Val} {de : Val → Option G'} {g : G'}
    (hs : ∀ s, e.selected = some s → s.Nodup) (hd : ∀ w, Carries pos extra (ser e.glyph) w → de w = some g) (w : Val)
    (hc : Carries pos extra (serEntry F e (ser e.glyph)) w) :
    deEntry F de w = some ⟨e.description, e.layerIdx, e.contourIdx, e.pointIdx, e.guidelines, e.selected, g⟩ := by
  obtain ⟨r, hr, hh⟩ := row_ok ["description", "layer_idx", "contour_idx", "point_idx", "guidelines", "selected", "glyph"]
    (by decide) rfl hc
  simp only [deEntry, hr, Option.bind_eq_bind, Option.bind_some,
    hh.need 0 rfl (str_ok _ _ _),
    hh.opt 1 rfl (option_ok usize_ok _ _ _),
    hh.opt 2 rfl (option_ok usize_ok _ _ _),
    hh.opt 3 rfl (option_ok usize_ok _ _ _),
    hh.need 4 rfl (list_ok (guideline_ok hF) _ _ _),
    hh.opt 5 rfl (option_ok' fun s hn => set_ok (pair_ok usize_ok usize_ok) (hs s hn)),
    hh.need 6 rfl hd]

theorem serEntries_eq (F : Foreign PD D) (es : List (HistoryEntry PD (EditedGlif PD))) :
    serEntries F es = es.map fun e => serEntry F e (serEdited F e.glyph) := by
  induction es with
  | nil => simp [serEntries]
  | cons e es ih => simp [serEntries, serEntryAux, ih]

theorem entriesWithout_eq (es : List (HistoryEntry PD (EditedGlif PD))) : entriesWithout es = es.map entryWithout := by
  induction es with
  | nil => simp [entriesWithout]
  | cons e es ih => simp [entriesWithout, ih]

theorem entryWithout_eq (e : HistoryEntry PD (EditedGlif PD)) : entryWithout e =
    ⟨e.description, e.layerIdx, e.contourIdx, e.pointIdx, e.guidelines, e.selected, withoutFilenames e.glyph⟩ := by
  cases e
  simp [entryWithout]

theorem deEdited_ok {F : Foreign PD D} (hF : ForeignOk F) (hp : ¬ pos) (hx : ¬ extra "filename") (n : Nat) (g : EditedGlif PD)
    (hg : EditedInRange g) (hn : (serEdited F g).depth ≤ n) (w : Val) (hc : Carries pos extra (serEdited F g) w) :
    deEdited F n w = some (withoutFilenames g) := by
  induction n generalizing g w with
  | zero =>
    obtain ⟨g, es⟩ := g
    simp only [serEdited, Val.depth] at hn
    omega
  | succ n ih =>
    cases hg with
    | @mk g es hg hs hes =>
    simp only [serEdited] at hn hc
    obtain ⟨r, hr, hnamed, hh, hlast⟩ := row_more ["layers", "history", "anchors", "components", "flattened", "component_rects",
      "guidelines", "width", "unicode", "name", "note"] "filename" (by decide) rfl (by decide) hp hx hc
    have hr : w.row ["layers", "history", "anchors", "components", "flattened", "component_rects",
      "guidelines", "width", "unicode", "name", "note", "filename"] = some r := hr
    have hlast : r.vals[11]? = some none := hlast
    have h11 : r.opt 11 (option F.path).de = some none := by
      unfold Row.opt
      rw [hlast, hnamed]
      rfl
    have h1 : r.need 1 (deSeq (deEntry F (deEdited F n))) = some (entriesWithout es) := by
      refine hh.need 1 rfl fun w hw => ?_
      rw [serEntries_eq] at hw
      obtain ⟨ws, rfl, h'⟩ := seq_ok (de := deEntry F (deEdited F n)) (m := entriesWithout es) hw (by rw [entriesWithout_eq]; simp)
        fun i e e' w he he' hc => by
          rw [entriesWithout_eq, List.getElem?_map, he, Option.map_some] at he'
          cases he'
          have hm : e ∈ es := List.mem_of_getElem? he
          rw [entryWithout_eq]
          refine entry_ok hF (hs e hm) (fun w hw => ih e.glyph (hes e hm) ?_ w hw) w hc
          have h1 : (serEdited F e.glyph).depth < (serEntry F e (serEdited F e.glyph)).depth := by
            unfold serEntry
            generalize serEdited F e.glyph = v
            simp only [Val.depth, depthFields]
            omega
          have h2 : (serEntry F e (serEdited F e.glyph)).depth ≤ depths (serEntries F es) := by
            rw [serEntries_eq]
            exact depth_mem (List.mem_map.2 ⟨e, hm, rfl⟩)
          simp only [Val.depth, depthFields] at hn
          omega
      exact h'
    simp only [deEdited, hr, Option.bind_eq_bind, Option.bind_some, h1, h11, withoutFilenames,
      hh.need 0 rfl (list_ok (layer_ok hF) _ _ _),
      hh.need 2 rfl (list_ok (anchor_ok hF) _ _ _),
      hh.need 3 rfl (glifComponents_ok hF hg.uniques),
      hh.opt 4 rfl (option_ok (list_ok (list_ok (point_ok hF.pd))) _ _ _),
      hh.opt 5 rfl (option_ok (list_ok componentRect_ok) _ _ _),
      hh.need 6 rfl (list_ok (guideline_ok hF) _ _ _),
      hh.opt 7 rfl (option_ok' fun n hn => u64_ok (hg.width n hn)),
      hh.need 8 rfl (list_ok char_ok _ _ _),
      hh.need 9 rfl (str_ok _ _ _),
      hh.opt 10 rfl (option_ok str_ok _ _ _)]

theorem edited_ok {F : Foreign PD D} (hF : ForeignOk F) (hp : ¬ pos) (hx : ¬ extra "filename") {g : EditedGlif PD}
    (hg : EditedInRange g) (w : Val) (hc : Carries pos extra ((edited F).ser g) w) :
    (edited F).de w = some (withoutFilenames g) :=
  deEdited_ok hF hp hx w.depth g hg (Carries.depth hc) w hc

theorem edited_positional (F : Foreign PD D) (g : EditedGlif PD) (ws : List Val) (h : ws.length < 12) (n : Nat) :
    deEdited F n (.seq ws) = none := by
  cases n with
  | zero => rfl
  | succ n =>
    have hr : (Val.seq ws).row ["layers", "history", "anchors", "components", "flattened", "component_rects",
      "guidelines", "width", "unicode", "name", "note", "filename"] = some ⟨false, ws.map some ++ List.replicate (12 - ws.length) none⟩ := by
      simp only [Val.row]
      rw [if_pos (by simpa using Nat.le_of_lt h)]
      rfl
    have h11 : (Row.mk false (ws.map some ++ List.replicate (12 - ws.length) none)).opt 11 (option F.path).de = none := by
      unfold Row.opt
      rw [List.getElem?_append_right (by simp; omega), List.getElem?_replicate, List.length_map, if_pos (by omega)]
      rfl
    simp only [deEdited, hr, Option.bind_eq_bind, Option.bind_some, h11, Option.bind_none, Option.bind_fun_none]

/-! ## What formats may do -/

mutual
theorem positional_carries (v : Val) : Carries True extra v v.positional := by
  cases v with
  | some v => simp only [Val.positional]; exact .some (positional_carries v)
  | variant n v => simp only [Val.positional]; exact .variant (positional_carries v)
  | seq vs =>
    simp only [Val.positional]
    exact .seq (positionals_carries vs).1 (positionals_carries vs).2
  | struct fs =>
    simp only [Val.positional]
    exact .positional trivial (positionalFields_carries fs).1 (positionalFields_carries fs).2
  | _ => simp only [Val.positional]; exact .same _

theorem positionals_carries (vs : List Val) : vs.length = (positionals vs).length ∧
    ∀ (i : Nat) (v w : Val), vs[i]? = some v → (positionals vs)[i]? = some w → Carries True extra v w := by
  cases vs with
  | nil => exact ⟨by simp [positionals], fun i v w h => by simp at h⟩
  | cons u vs =>
    have ih := positionals_carries vs
    have hu := positional_carries u
    simp only [positionals]
    refine ⟨by simp [ih.1], fun i v w h1 h2 => ?_⟩
    cases i with
    | zero => cases h1; cases h2; exact hu
    | succ i => exact ih.2 i v w h1 h2

theorem positionalFields_carries (fs : List (String × Val)) : fs.length = (positionalFields fs).length ∧
    ∀ (i : Nat) (k : String) (v w : Val), fs[i]? = some (k, v) → (positionalFields fs)[i]? = some w → Carries True extra v w := by
  cases fs with
  | nil => exact ⟨by simp [positionalFields], fun i k v w h => by simp at h⟩
  | cons f fs =>
    obtain ⟨l, u⟩ := f
    have ih := positionalFields_carries fs
    have hu := positional_carries u
    simp only [positionalFields]
    refine ⟨by simp [ih.1], fun i k v w h1 h2 => ?_⟩
    cases i with
    | zero => cases h1; cases h2; exact hu
    | succ i => exact ih.2 i k v w h1 h2
end

/-- Fields in another order. -/
theorem perm_carries {fs gs : List (String × Val)} (hn : (fs.map (·.1)).Nodup) (h : gs.Perm fs) :
    Carries pos extra (.struct fs) (.struct gs) := by
  have hn' : (gs.map (·.1)).Nodup := (h.map _).nodup_iff.2 hn
  refine .named (fun k => ((fs.filter fun g => g.1 == k).map (·.2)).headD .unit) (fun k v hm => ?_) (fun k v hm => ?_) fun k w hw => ?_
  · rw [filter_key hn' (h.mem_iff.2 hm), filter_key hn hm]
    rfl
  · rw [filter_key hn hm]
    exact .same v
  · exact Or.inl ⟨w, h.mem_iff.1 hw⟩

end GP.Serde
