import Verif.Spec.SaveParts
import Verif.Props.DocParts
import Verif.Props.Resave
import Verif.Props.Format
import Verif.Props.ReadPoints
import Verif.Props.ReverseOutline
import Verif.Props.Sample
/-!
# C147: a glyph is saved and read contour by contour
-/
open Fl Fl.Text
namespace GP
variable {PD D : Type}
open Spec

/-- What is written in front of the outline. -/
def headNodes (g : Glif PD D) : List Node :=
  (match g.width with
    | some w => [(advanceXml w).node]
    | none => []) ++ (g.unicode.map fun c => (unicodeXml c).node) ++ g.anchors.map fun a => (anchorXml a).node

/-- What is written after it. -/
def tailNodes (pio : PlistIO D) (g : Glif PD D) : List Node :=
  (g.images.map fun i => (imageXml i).node) ++ (g.guidelines.map fun l => (guidelineXml l).node) ++
    (match g.note with
      | some n => [(noteXml n).node]
      | none => []) ++
    match libXml pio g.lib with
    | some e => [e.node]
    | none => []

/-- The element written, without its content. -/
def glyphNode (g : Glif PD D) : Element := (({ name := "glyph" } : Element).set "name" g.name).set "format" "2".toList

/-- The element written, with a list of nodes between them. -/
def docNode (pio : PlistIO D) (g : Glif PD D) (kids : List Node) : Element :=
  { glyphNode g with children := headNodes g ++ kids ++ tailNodes pio g }

theorem headNodes_outline (g : Glif PD D) : named "outline" (headNodes g) = [] := by
  have h1 : ∀ us : List Char, named "outline" (us.map fun c => (unicodeXml c).node) = [] := fun us => by
    induction us with
    | nil => rfl
    | cons u us ih => rw [List.map_cons, Element.node, named_cons_elem, if_neg (by simp [unicodeXml, Element.set]), ih]; rfl
  have h2 : ∀ us : List Anchor, named "outline" (us.map fun c => (anchorXml c).node) = [] := fun us => by
    induction us with
    | nil => rfl
    | cons u us ih => rw [List.map_cons, Element.node, named_cons_elem, if_neg (by cases h : u.cls <;> simp [anchorXml, Element.set, Element.setOpt, h]), ih]; rfl
  rw [headNodes, named_append, named_append, h1, h2]
  cases g.width <;> rfl

theorem tailNodes_outline (pio : PlistIO D) (g : Glif PD D) : named "outline" (tailNodes pio g) = [] := by
  have h1 : ∀ us : List GlifImage, named "outline" (us.map fun c => (imageXml c).node) = [] := fun us => by
    induction us with
    | nil => rfl
    | cons u us ih =>
      rw [List.map_cons, Element.node, named_cons_elem,
        if_neg (by cases h : u.identifier <;> simp [imageXml, writeMatrix, Element.set, Element.setOpt, h]), ih]; rfl
  have h2 : ∀ us : List Guideline, named "outline" (us.map fun c => (guidelineXml c).node) = [] := fun us => by
    induction us with
    | nil => rfl
    | cons u us ih =>
      rw [List.map_cons, Element.node, named_cons_elem, if_neg (by
        cases h : u.identifier <;> cases h' : u.name <;> cases h'' : u.color <;> simp [guidelineXml, Element.set, Element.setOpt, h, h', h'']), ih]; rfl
  rw [tailNodes, named_append, named_append, named_append, h1, h2]
  cases g.note <;> cases h : libXml pio g.lib with
  | none => rfl
  | some e =>
    have : e.name = "lib" := by
      unfold libXml at h
      obtain ⟨a, -, rfl⟩ := Option.map_eq_some_iff.1 h
      rfl
    show _ ++ named "outline" [e.node] = []
    rw [Element.node, named_cons_elem, this, if_neg (by decide)]
    rfl

/-- A document without an outline is read as with an empty one. -/
theorem read_noOutline (mid : IOF → IOF → IOF) (pio : PlistIO D) (ped : Pedantry) (root : Element) (pre post : List Node)
    (attrs : List (String × Str)) (hpre : named "outline" pre = []) (hpost : named "outline" post = []) (g : Glif PD D) :
    readGlif mid pio ped { root with children := pre ++ post } = .ok g ↔ readGlif mid pio ped (withOutline root pre post attrs []) = .ok g := by
  obtain ⟨n1, n2⟩ := named_withOutline root pre post attrs [] hpre
  have m1 : named "outline" (pre ++ post) = [] := by rw [named_append, hpre, hpost]; rfl
  have m2 : ∀ n, n ≠ "outline" → named n (pre ++ post) = named n (withOutline root pre post attrs []).children := fun n hn => by
    rw [n2 n hn, named_append]
  have e : readOutline ⟨"outline", attrs, []⟩ = .ok ([], []) := by rw [readOutline_eq]; rfl
  have getE : ∀ cs k, ({ root with children := cs } : Element).get k = root.get k := fun _ _ => rfl
  have getW : ∀ k, (withOutline root pre post attrs []).get k = root.get k := fun _ => rfl
  have nameW : (withOutline root pre post attrs []).name = root.name := rfl
  have lib : ∀ p : Pre, ∀ out : Outline PD, ∀ o o', (o = none ∧ o' = some ([], []) ∨ o = some ([], []) ∧ o' = none) →
      (glifOf pio (fun n => named n (pre ++ post)) { p with outline := o } out : Glif PD D) =
        glifOf pio (fun n => named n (withOutline root pre post attrs []).children) { p with outline := o' } out := by
    intro p out o o' h
    rw [glifOf, glifOf, m2 "note" (by decide), m2 "lib" (by decide)]
    rcases h with ⟨rfl, rfl⟩ | ⟨rfl, rfl⟩ <;> rfl
  simp only [readGlif_ok_iff, getE, getW, nameW, n1, m1, m2 "advance" (by decide), m2 "unicode" (by decide), m2 "anchor" (by decide),
    m2 "image" (by decide), m2 "guideline" (by decide), readOpt, e, Out.bind_ok, List.head?_nil]
  constructor
  · rintro ⟨p, out, t1, t2, t3, h1, h2, h3, h4, h5, h6, h7, rfl⟩
    have ho : p.outline = none := (Out.ok.inj h6).symm
    rw [ho] at h7
    refine ⟨{ p with outline := some ([], []) }, out, t1, t2, t3, h1, h2, h3, h4, h5, rfl, h7, ?_⟩
    rw [← lib p out none (some ([], [])) (.inl ⟨rfl, rfl⟩), ← ho]
  · rintro ⟨p, out, t1, t2, t3, h1, h2, h3, h4, h5, h6, h7, rfl⟩
    have ho : p.outline = some ([], []) := (Out.ok.inj h6).symm
    rw [ho] at h7
    refine ⟨{ p with outline := none }, out, t1, t2, t3, h1, h2, h3, h4, h5, rfl, h7, ?_⟩
    rw [lib p out none (some ([], [])) (.inl ⟨rfl, rfl⟩), ← ho]

/-- A glyph that is saved and read is read from a document with its contours and components as parts of the outline. -/
theorem saved_iff (mid : IOF → IOF → IOF) (pio : PlistIO D) (ped : Pedantry) (g : Glif PD D) (h : Glif PD D) :
    (glifXml pio g >>= readGlif mid pio ped) = .ok h ↔ ∃ os, Out.mapM' contourXml (g.outline.getD []) = .ok os ∧
      readGlif mid pio ped (withOutline (glyphNode g) (headNodes g) (tailNodes pio g) [] (os.map Element.node ++ g.components.vec.map fun c =>
        (componentXml c).node)) = .ok h := by
  have key : ∀ kids : List Node, readGlif mid pio ped (docNode pio g (if 1 ≤ kids.length then
        [(⟨"outline", [], kids⟩ : Element).node] else [])) = .ok h ↔
      readGlif mid pio ped (withOutline (glyphNode g) (headNodes g) (tailNodes pio g) [] kids) = .ok h := by
    intro kids
    by_cases hk : 1 ≤ kids.length
    · rw [docNode, if_pos hk, List.append_assoc]; rfl
    · have : kids = [] := by cases kids with
        | nil => rfl
        | cons => simp at hk
      subst this
      rw [docNode, if_neg hk, List.append_nil]
      exact read_noOutline mid pio ped _ _ _ _ (headNodes_outline g) (tailNodes_outline pio g) h
  have written : ∀ os, Out.mapM' contourXml (g.outline.getD []) = .ok os →
      glifXml pio g = .ok (docNode pio g (if 1 ≤ (os.map Element.node ++ g.components.vec.map fun c =>
        (componentXml c).node).length then [(⟨"outline", [], os.map Element.node ++ g.components.vec.map fun c =>
        (componentXml c).node⟩ : Element).node] else [])) := by
    intro os hos
    unfold glifXml
    cases ho : g.outline with
    | none =>
      rw [ho] at hos
      cases hos
      simp only [Out.bind_ok, docNode, headNodes, tailNodes, glyphNode, List.append_assoc, List.map_nil]
      rfl
    | some o =>
      rw [ho] at hos
      have hos : Out.mapM' contourXml o = .ok os := hos
      simp only [outlineXml, hos, Out.bind_ok, docNode, headNodes, tailNodes, glyphNode, List.append_assoc]
      rfl
  constructor
  · intro hh
    obtain ⟨root, h1, h2⟩ := bind_eq_ok.1 hh
    have : ∃ os, Out.mapM' contourXml (g.outline.getD []) = .ok os := by
      unfold glifXml at h1
      cases ho : g.outline with
      | none => exact ⟨[], rfl⟩
      | some o =>
        rw [ho] at h1
        obtain ⟨e, he, -⟩ := bind_eq_ok.1 h1
        obtain ⟨os, hos, -⟩ := bind_eq_ok.1 he
        exact ⟨os, hos⟩
    obtain ⟨os, hos⟩ := this
    rw [written os hos] at h1
    cases h1
    exact ⟨os, hos, (key _).1 h2⟩
  · rintro ⟨os, hos, h2⟩
    rw [written os hos, Out.bind_ok]
    exact (key _).2 h2

theorem forall₂_map_left {α β γ : Type} {R : β → γ → Prop} {f : α → β} {xs : List α} {ys : List γ} :
    List.Forall₂ R (xs.map f) ys ↔ List.Forall₂ (fun a c => R (f a) c) xs ys := by
  induction xs generalizing ys with
  | nil => constructor <;> intro h <;> cases h <;> exact .nil
  | cons x xs ih =>
    constructor
    · intro h
      cases h with
      | cons h t => exact .cons h (ih.1 t)
    · intro h
      cases h with
      | cons h t => exact .cons h (ih.2 t)

theorem read_component {mid : IOF → IOF → IOF} {pio : PlistIO D} {ped : Pedantry} {root : Element} {pre post : List Node} {e : Element}
    {x : Glif PD D} (hpre : named "outline" pre = []) (he : e.name = "component")
    (h : readGlif mid pio ped (withOutline root pre post [] [e.node]) = .ok x) : x.outline.getD [] = [] := by
  obtain ⟨p, out, -, -, -, -, -, -, -, -, h6, h7, rfl⟩ := (readGlif_ok_iff mid pio ped _ x).1 h
  rw [(named_withOutline root pre post [] [e.node] hpre).1, readOpt, readOutline_eq] at h6
  have e1 : named "contour" [e.node] = [] := by rw [Element.node, named_cons_elem, he]; rfl
  obtain ⟨r, hr, h6⟩ := bind_eq_ok.1 h6
  have h6 : p.outline = some r := (Out.ok.inj h6).symm
  rw [e1] at hr
  obtain ⟨cs, hcs, hr⟩ := bind_eq_ok.1 hr
  obtain ⟨ks, -, hr⟩ := bind_eq_ok.1 hr
  cases hcs; cases hr
  rw [h6] at h7
  cases h7
  unfold glifOf
  rw [h6]
  cases ks <;> rfl

theorem read_contour {mid : IOF → IOF → IOF} {pio : PlistIO D} {ped : Pedantry} {root : Element} {pre post : List Node} {e : Element}
    {x : Glif PD D} (hpre : named "outline" pre = []) (he : e.name = "contour")
    (h : readGlif mid pio ped (withOutline root pre post [] [e.node]) = .ok x) : x.components.vec = [] := by
  obtain ⟨p, out, -, -, -, -, -, -, -, -, h6, h7, rfl⟩ := (readGlif_ok_iff mid pio ped _ x).1 h
  rw [(named_withOutline root pre post [] [e.node] hpre).1, readOpt, readOutline_eq] at h6
  have e1 : named "component" [e.node] = [] := by rw [Element.node, named_cons_elem, he]; rfl
  obtain ⟨r, hr, h6⟩ := bind_eq_ok.1 h6
  have h6 : p.outline = some r := (Out.ok.inj h6).symm
  rw [e1] at hr
  obtain ⟨cs, -, hr⟩ := bind_eq_ok.1 hr
  obtain ⟨ks, hks, hr⟩ := bind_eq_ok.1 hr
  cases hks; cases hr
  unfold glifOf
  rw [h6]
  rfl

theorem flatMap_nil {α β : Type} {f : α → List β} {l : List α} (h : ∀ x ∈ l, f x = []) : l.flatMap f = [] := by
  induction l with
  | nil => rfl
  | cons a l ih => rw [List.flatMap_cons, h a (by simp), ih fun x hx => h x (by simp [hx])]; rfl

theorem forall₂_each_right {α β : Type} {R : α → β → Prop} {P : β → Prop} {xs : List α} {ys : List β} (h : List.Forall₂ R xs ys)
    (hP : ∀ a ∈ xs, ∀ b, R a b → P b) : ∀ b ∈ ys, P b := by
  induction h with
  | nil => nofun
  | cons h _ ih =>
    intro b hb
    rcases List.mem_cons.1 hb with rfl | hb
    · exact hP _ (by simp) _ h
    · exact ih (fun a ha => hP a (by simp [ha])) b hb

/-- **C147.** A glyph can be saved and read exactly if it can be with each of its contours and each of its components alone, and what
comes back of them is what comes back of each, in order. -/
theorem C147_each (mid : IOF → IOF → IOF) (pio : PlistIO D) (ped : Pedantry) (g : Glif PD D) (o : Outline PD) (ks : List GlifComponent)
    (h : Glif PD D) :
    (glifXml pio (holding g o ks) >>= readGlif mid pio ped) = .ok h ↔
      ∃ (h₀ : Glif PD D) (hs js : List (Glif PD D)), (glifXml pio (holding g [] []) >>= readGlif mid pio ped) = .ok h₀ ∧
        List.Forall₂ (fun c x => (glifXml pio (holding g [c] []) >>= readGlif mid pio ped) = .ok x) o hs ∧
        List.Forall₂ (fun k x => (glifXml pio (holding g [] [k]) >>= readGlif mid pio ped) = .ok x) ks js ∧
        h = withMore h₀ (hs.flatMap fun x => x.outline.getD []) (js.flatMap fun x => x.components.vec) := by
  have comp : ∀ k (x : Glif PD D), (glifXml pio (holding g [] [k]) >>= readGlif mid pio ped) = .ok x ↔
      readGlif mid pio ped (withOutline (glyphNode g) (headNodes g) (tailNodes pio g) [] [(componentXml k).node]) = .ok x := by
    intro k x
    rw [saved_iff]
    constructor
    · rintro ⟨os, hos, h⟩; cases hos; exact h
    · intro h; exact ⟨[], rfl, h⟩
  have cont : ∀ c (x : Glif PD D), (glifXml pio (holding g [c] []) >>= readGlif mid pio ped) = .ok x ↔ ∃ e, contourXml c = .ok e ∧
      readGlif mid pio ped (withOutline (glyphNode g) (headNodes g) (tailNodes pio g) [] [e.node]) = .ok x := by
    intro c x
    rw [saved_iff]
    constructor
    · rintro ⟨os, hos, h⟩
      obtain ⟨e, he, hos⟩ := bind_eq_ok.1 (show (contourXml c >>= fun y => Out.mapM' contourXml [] >>= fun ys => .ok (y :: ys)) = _ from hos)
      cases hos
      exact ⟨e, he, h⟩
    · rintro ⟨e, he, h⟩
      exact ⟨[e], (mapM'_ok_iff _ _).2 (.cons he .nil), h⟩
  have zero : ∀ x : Glif PD D, (glifXml pio (holding g [] []) >>= readGlif mid pio ped) = .ok x ↔
      readGlif mid pio ped (withOutline (glyphNode g) (headNodes g) (tailNodes pio g) [] []) = .ok x := by
    intro x
    rw [saved_iff]
    constructor
    · rintro ⟨os, hos, h⟩; cases hos; exact h
    · intro h; exact ⟨[], rfl, h⟩
  have conts : ∀ hs : List (Glif PD D), List.Forall₂ (fun c x => (glifXml pio (holding g [c] []) >>= readGlif mid pio ped) = .ok x) o hs ↔
      ∃ os, Out.mapM' contourXml o = .ok os ∧ List.Forall₂ (fun e x =>
        readGlif mid pio ped (withOutline (glyphNode g) (headNodes g) (tailNodes pio g) [] [Element.node e]) = .ok x) os hs := by
    intro hs
    simp only [cont, mapM'_ok_iff]
    clear comp cont zero
    induction o generalizing hs with
    | nil =>
      constructor
      · intro h; cases h; exact ⟨[], .nil, .nil⟩
      · rintro ⟨os, h1, h2⟩; cases h1; cases h2; exact .nil
    | cons c o ih =>
      constructor
      · intro h
        cases h with
        | cons a t =>
          obtain ⟨e, he, hr⟩ := a
          obtain ⟨os, h1, h2⟩ := (ih _).1 t
          exact ⟨e :: os, .cons he h1, .cons hr h2⟩
      · rintro ⟨os, h1, h2⟩
        cases h1 with
        | cons he h1 =>
          cases h2 with
          | cons hr h2 => exact .cons ⟨_, he, hr⟩ ((ih _).2 ⟨_, h1, h2⟩)
  have only : ∀ os : List Element, ∀ hs js : List (Glif PD D), Out.mapM' contourXml o = .ok os → List.Forall₂ (fun e x =>
        readGlif mid pio ped (withOutline (glyphNode g) (headNodes g) (tailNodes pio g) [] [Element.node e]) = .ok x) os hs →
      List.Forall₂ (fun k x => readGlif mid pio ped (withOutline (glyphNode g) (headNodes g) (tailNodes pio g) [] [(componentXml k).node]) = .ok x) ks js →
      ((hs ++ js).flatMap fun x => x.outline.getD []) = (hs.flatMap fun x => x.outline.getD []) ∧
        ((hs ++ js).flatMap fun x => x.components.vec) = js.flatMap fun x => x.components.vec := by
    intro os hs js hos hh hj
    rw [List.flatMap_append, List.flatMap_append,
      flatMap_nil (forall₂_each_right hj fun k _ x hx => read_component (headNodes_outline g) (componentXml_name k) hx),
      flatMap_nil (f := fun x : Glif PD D => x.components.vec) (forall₂_each_right hh fun e he x hx => read_contour (headNodes_outline g)
        (forall₂_each_right ((mapM'_ok_iff _ _).1 hos) (fun c _ e h => (contourXml_name h).1) e he) hx)]
    exact ⟨List.append_nil _, List.nil_append _⟩
  rw [saved_iff]
  simp only [conts, comp, zero]
  constructor
  · rintro ⟨os, hos, h⟩
    obtain ⟨h₀, gs, h0, hgs, rfl⟩ := (C146_each mid pio ped _ _ _ _ _ (headNodes_outline g) _).1 h
    obtain ⟨hs, js, hh, hj, rfl⟩ := forall₂_split hgs
    have hh := forall₂_map_left.1 hh
    have hj := forall₂_map_left.1 hj
    refine ⟨h₀, hs, js, h0, ⟨os, hos, hh⟩, hj, ?_⟩
    obtain ⟨e1, e2⟩ := only os hs js hos hh hj
    rw [e1, e2]
  · rintro ⟨h₀, hs, js, h0, ⟨os, hos, hh⟩, hj, rfl⟩
    obtain ⟨e1, e2⟩ := only os hs js hos hh hj
    rw [← e1, ← e2]
    exact ⟨os, hos, (C146_each mid pio ped _ _ _ _ _ (headNodes_outline g) _).2
      ⟨h₀, hs ++ js, h0, List.rel_append (forall₂_map_left.2 hh) (forall₂_map_left.2 hj), rfl⟩⟩

/-- What is saved and read of a glyph without contours and components has none. -/
theorem saved_none {mid : IOF → IOF → IOF} {pio : PlistIO D} {ped : Pedantry} {g h : Glif PD D}
    (hh : (glifXml pio (holding g [] []) >>= readGlif mid pio ped) = .ok h) : h.outline = none ∧ h.components.vec = [] := by
  obtain ⟨os, hos, hr⟩ := (saved_iff mid pio ped _ _).1 hh
  cases hos
  exact read_emptyOutline (headNodes_outline _) hr

/-- With the glyph that comes back without any of them. -/
theorem saved_parts (mid : IOF → IOF → IOF) (pio : PlistIO D) (ped : Pedantry) (g : Glif PD D) (o₁ o₂ : Outline PD) (k₁ k₂ : List GlifComponent)
    (h : Glif PD D) :
    (glifXml pio (holding g (o₁ ++ o₂) (k₁ ++ k₂)) >>= readGlif mid pio ped) = .ok h ↔
      ∃ h₁ h₂ : Glif PD D, (glifXml pio (holding g o₁ k₁) >>= readGlif mid pio ped) = .ok h₁ ∧
        (glifXml pio (holding g o₂ k₂) >>= readGlif mid pio ped) = .ok h₂ ∧
        (∀ o ks, holding h₁ o ks = holding h₂ o ks) ∧ h = withMore h₁ (h₂.outline.getD []) h₂.components.vec := by
  have key : ∀ h₀ : Glif PD D, (glifXml pio (holding g [] []) >>= readGlif mid pio ped) = .ok h₀ → ∀ (a b : Outline PD) (c d : List GlifComponent),
      withMore h₀ (a ++ b) (c ++ d) = withMore (withMore h₀ a c) ((withMore h₀ b d).outline.getD []) (withMore h₀ b d).components.vec := by
    intro h₀ h0 a b c d
    obtain ⟨e1, e2⟩ := saved_none h0
    have hv : (withMore h₀ b d).components.vec = h₀.components.vec ++ d := rfl
    rw [withMore_outline, hv, e1, e2, Option.getD_none, List.nil_append, List.nil_append, withMore_withMore]
  constructor
  · intro hh
    obtain ⟨h₀, hs, js, h0, hhs, hjs, rfl⟩ := (C147_each mid pio ped g _ _ h).1 hh
    obtain ⟨hs₁, hs₂, a1, a2, rfl⟩ := forall₂_split hhs
    obtain ⟨js₁, js₂, b1, b2, rfl⟩ := forall₂_split hjs
    refine ⟨_, _, (C147_each mid pio ped g _ _ _).2 ⟨h₀, hs₁, js₁, h0, a1, b1, rfl⟩,
      (C147_each mid pio ped g _ _ _).2 ⟨h₀, hs₂, js₂, h0, a2, b2, rfl⟩, fun _ _ => rfl, ?_⟩
    rw [List.flatMap_append, List.flatMap_append]
    exact key h₀ h0 _ _ _ _
  · rintro ⟨_, _, h1, h2, -, rfl⟩
    obtain ⟨h₀, hs₁, js₁, h0, a1, b1, rfl⟩ := (C147_each mid pio ped g _ _ _).1 h1
    obtain ⟨h₀', hs₂, js₂, h0', a2, b2, rfl⟩ := (C147_each mid pio ped g _ _ _).1 h2
    rw [h0] at h0'
    cases h0'
    refine (C147_each mid pio ped g _ _ _).2 ⟨h₀, hs₁ ++ hs₂, js₁ ++ js₂, h0, List.rel_append a1 a2, List.rel_append b1 b2, ?_⟩
    rw [List.flatMap_append, List.flatMap_append]
    exact (key h₀ h0 _ _ _ _).symm

/-- **C147.** A glyph with some contours and components and others after them can be saved and read exactly if it can be with either
alone, and comes back as it does with the former, with what the latter come back as after it. -/
theorem C147_parts (mid : IOF → IOF → IOF) (pio : PlistIO D) (ped : Pedantry) (g : Glif PD D) (o₁ o₂ : Outline PD) (k₁ k₂ : List GlifComponent)
    (h : Glif PD D) :
    (glifXml pio (holding g (o₁ ++ o₂) (k₁ ++ k₂)) >>= readGlif mid pio ped) = .ok h ↔
      ∃ h₁ h₂ : Glif PD D, (glifXml pio (holding g o₁ k₁) >>= readGlif mid pio ped) = .ok h₁ ∧
        (glifXml pio (holding g o₂ k₂) >>= readGlif mid pio ped) = .ok h₂ ∧ h = withMore h₁ (h₂.outline.getD []) h₂.components.vec := by
  rw [saved_parts]
  constructor
  · rintro ⟨h₁, h₂, a, b, -, c⟩
    exact ⟨h₁, h₂, a, b, c⟩
  · rintro ⟨h₁, h₂, a, b, rfl⟩
    obtain ⟨h₀, hs₁, js₁, h0, -, -, rfl⟩ := (C147_each mid pio ped g _ _ _).1 a
    obtain ⟨h₀', hs₂, js₂, h0', -, -, rfl⟩ := (C147_each mid pio ped g _ _ _).1 b
    rw [h0] at h0'
    cases h0'
    exact ⟨_, _, a, b, fun _ _ => rfl, rfl⟩

/-- Only what the contours are matters, not whether there is an outline. -/
theorem gtrip_holding (mid : IOF → IOF → IOF) (pio : PlistIO D) (g h : Glif PD D) :
    gtrip mid pio g = .ok h ↔ gtrip mid pio (holding g (g.outline.getD []) g.components.vec) = .ok h := by
  unfold gtrip
  rw [saved_iff, saved_iff]
  exact Iff.rfl

theorem gtrips_succ_ok (mid : IOF → IOF → IOF) (pio : PlistIO D) (k : Nat) (g h : Glif PD D) :
    gtrips mid pio (k + 1) g = .ok h ↔ ∃ m, gtrip mid pio g = .ok m ∧ gtrips mid pio k m = .ok h := by
  rw [gtrips]
  exact bind_eq_ok

/-- **C147.** So however often it is saved and read. -/
theorem C147_times (mid : IOF → IOF → IOF) (pio : PlistIO D) (k : Nat) (g : Glif PD D) (o₁ o₂ : Outline PD) (k₁ k₂ : List GlifComponent)
    (h : Glif PD D) :
    gtrips mid pio (k + 1) (holding g (o₁ ++ o₂) (k₁ ++ k₂)) = .ok h ↔
      ∃ h₁ h₂ : Glif PD D, gtrips mid pio (k + 1) (holding g o₁ k₁) = .ok h₁ ∧ gtrips mid pio (k + 1) (holding g o₂ k₂) = .ok h₂ ∧
        h = withMore h₁ (h₂.outline.getD []) h₂.components.vec := by
  induction k generalizing g o₁ o₂ k₁ k₂ h with
  | zero =>
    have e : ∀ g h : Glif PD D, gtrips mid pio (0 + 1) g = .ok h ↔ (glifXml pio g >>= readGlif mid pio {}) = .ok h := fun g h => by
      rw [gtrips_succ_ok]
      constructor
      · rintro ⟨m, h1, h2⟩; cases h2; exact h1
      · intro h1; exact ⟨h, h1, rfl⟩
    simp only [e]
    exact C147_parts mid pio {} g o₁ o₂ k₁ k₂ h
  | succ k ih =>
    have hold : ∀ m : Glif PD D, ∀ h, gtrips mid pio (k + 1) m = .ok h ↔ gtrips mid pio (k + 1) (holding m (m.outline.getD []) m.components.vec) = .ok h :=
      fun m h => by
        rw [gtrips_succ_ok, gtrips_succ_ok]
        simp only [gtrip_holding mid pio m]
    have glue : ∀ m₁ m₂ : Glif PD D, (∀ o ks, holding m₁ o ks = holding m₂ o ks) → ∀ h,
        gtrips mid pio (k + 1) (withMore m₁ (m₂.outline.getD []) m₂.components.vec) = .ok h ↔
          ∃ h₁ h₂ : Glif PD D, gtrips mid pio (k + 1) m₁ = .ok h₁ ∧ gtrips mid pio (k + 1) m₂ = .ok h₂ ∧
            h = withMore h₁ (h₂.outline.getD []) h₂.components.vec := by
      intro m₁ m₂ hm h
      rw [hold, withMore_outline]
      have := ih m₁ (m₁.outline.getD []) (m₂.outline.getD []) m₁.components.vec m₂.components.vec h
      rw [show holding (withMore m₁ (m₂.outline.getD []) m₂.components.vec) (m₁.outline.getD [] ++ m₂.outline.getD [])
        (withMore m₁ (m₂.outline.getD []) m₂.components.vec).components.vec = holding m₁ (m₁.outline.getD [] ++ m₂.outline.getD [])
        (m₁.components.vec ++ m₂.components.vec) from rfl, this, hm (m₂.outline.getD []) m₂.components.vec]
      simp only [← hold]
    rw [gtrips_succ_ok]
    constructor
    · rintro ⟨m, h1, h2⟩
      obtain ⟨m₁, m₂, a, b, hm, rfl⟩ := (saved_parts mid pio {} g o₁ o₂ k₁ k₂ m).1 h1
      obtain ⟨h₁, h₂, c, d, rfl⟩ := (glue m₁ m₂ hm h).1 h2
      exact ⟨h₁, h₂, (gtrips_succ_ok mid pio _ _ _).2 ⟨m₁, a, c⟩, (gtrips_succ_ok mid pio _ _ _).2 ⟨m₂, b, d⟩, rfl⟩
    · rintro ⟨h₁, h₂, h1, h2, rfl⟩
      obtain ⟨m₁, a, c⟩ := (gtrips_succ_ok mid pio _ _ _).1 h1
      obtain ⟨m₂, b, d⟩ := (gtrips_succ_ok mid pio _ _ _).1 h2
      obtain ⟨h₀, hs₁, js₁, h0, -, -, e1⟩ := (C147_each mid pio {} g _ _ _).1 a
      obtain ⟨h₀', hs₂, js₂, h0', -, -, e2⟩ := (C147_each mid pio {} g _ _ _).1 b
      rw [h0] at h0'
      cases h0'
      have hm : ∀ o ks, holding m₁ o ks = holding m₂ o ks := by subst e1 e2; exact fun _ _ => rfl
      exact ⟨_, (saved_parts mid pio {} g o₁ o₂ k₁ k₂ _).2 ⟨m₁, m₂, a, b, hm, rfl⟩, (glue m₁ m₂ hm _).2 ⟨h₁, h₂, c, d, rfl⟩⟩

/-- A contour of lines and one of a curve and a line, with a component: alone and together, saved and read once and twice. -/
example : let mid : IOF → IOF → IOF := fun a _ => a
    let pio : PlistIO Unit := ⟨fun _ => none, fun _ => none⟩
    let a : Contour Unit := [Sample.pt .line 0 0, Sample.pt .line 4 0, Sample.pt .line 4 4]
    let b : Contour Unit := [Sample.pt .curve 1 1, Sample.pt .line 2 1]
    let k : GlifComponent := { GlifComponent.new with base := "b".toList }
    let g : Glif Unit Unit := { name := "a".toList, width := some 500 }
    let said (n : Nat) (o : Outline Unit) (ks : List GlifComponent) := match gtrips mid pio n (holding g o ks) with
      | .ok h => some ((h.outline.getD []).map List.length, h.components.vec.length, h.width)
      | _ => none
    said 1 ([a] ++ [b]) ([] ++ [k]) = some ([3, 2], 1, some 500) ∧ said 2 ([a] ++ [b]) ([] ++ [k]) = some ([3, 2], 1, some 500) ∧
      said 2 [a] [] = some ([3], 0, some 500) ∧ said 2 [b] [k] = some ([2], 1, some 500) := by
  decide +kernel

end GP
