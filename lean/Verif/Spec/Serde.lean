import Verif.Model.Serde
/-!
# Specification of serialisation, for C100–C103

`Carries`: what formats may do to a value on the way.
-/
open Fl
namespace GP.Spec
open GP.Serde
variable {PD D α : Type}

/-- `w` says what `v` says: fields may have come in another order, fields whose names are in `extra` may have been added,
and, if `pos`, the names of fields may have been left out. -/
inductive Carries (pos : Prop) (extra : String → Prop) : Val → Val → Prop
  | same (v : Val) : Carries pos extra v v
  | some {v w : Val} : Carries pos extra v w → Carries pos extra (.some v) (.some w)
  | variant {n : String} {v w : Val} : Carries pos extra v w → Carries pos extra (.variant n v) (.variant n w)
  | seq {vs ws : List Val} : vs.length = ws.length →
      (∀ (i : Nat) (v w : Val), vs[i]? = some v → ws[i]? = some w → Carries pos extra v w) → Carries pos extra (.seq vs) (.seq ws)
  | named {fs gs : List (String × Val)} (f : String → Val) :
      (∀ k v, (k, v) ∈ fs → gs.filter (fun g => g.1 == k) = [(k, f k)]) →
      (∀ k v, (k, v) ∈ fs → Carries pos extra v (f k)) →
      (∀ k w, (k, w) ∈ gs → (∃ v, (k, v) ∈ fs) ∨ extra k) → Carries pos extra (.struct fs) (.struct gs)
  | positional {fs : List (String × Val)} {ws : List Val} : pos → fs.length = ws.length →
      (∀ (i : Nat) (k : String) (v w : Val), fs[i]? = some (k, v) → ws[i]? = some w → Carries pos extra v w) →
      Carries pos extra (.struct fs) (.seq ws)

/-- A type survives serialisation in all formats. -/
def Survives (s : Serde α) : Prop := ∀ pos extra a w, Carries pos extra (s.ser a) w → s.de w = some a

/-- Types of other crates survive serialisation. -/
structure ForeignOk (F : Foreign PD D) : Prop where
  iof : Survives F.iof
  path : Survives F.path
  dict : Survives F.dict
  pd : Survives F.pd

/-- What the Rust type of a glyph says: widths have 64 bits, and a set has no member twice. -/
structure InRange (width : Option Nat) (uniques : List Str) : Prop where
  width : ∀ n, width = some n → n < 2 ^ 64
  uniques : uniques.Nodup

/-- The same for an editor glyph and the glyphs of its history. -/
inductive EditedInRange : EditedGlif PD → Prop
  | mk {g : MGlif PD} {h : List (HistoryEntry PD (EditedGlif PD))} : InRange g.width g.components.uniques →
      (∀ e ∈ h, ∀ s, e.selected = some s → s.Nodup) → (∀ e ∈ h, EditedInRange e.glyph) → EditedInRange (.mk g h)

mutual
/-- The editor glyph, and all those in its history, without the file names. -/
def withoutFilenames : EditedGlif PD → EditedGlif PD
  | .mk g h => .mk { g with filename := none } (entriesWithout h)

def entriesWithout : List (HistoryEntry PD (EditedGlif PD)) → List (HistoryEntry PD (EditedGlif PD))
  | [] => []
  | e :: es => entryWithout e :: entriesWithout es

def entryWithout : HistoryEntry PD (EditedGlif PD) → HistoryEntry PD (EditedGlif PD)
  | ⟨d, l, c, p, gs, s, g⟩ => ⟨d, l, c, p, gs, s, withoutFilenames g⟩
end

/-- A field of this name, at this place in the source, is there, once, and holds such a value. -/
def Field (v : Val) (name : String) (place : Nat) (P : Val → Prop) : Prop :=
  (∃ fs u, v = .struct fs ∧ fs.filter (fun f => f.1 == name) = [(name, u)] ∧ P u) ∨
  ∃ vs u, v = .seq vs ∧ vs[place]? = some u ∧ P u

/-- The same, or there is no such field, and the default is this. -/
def FieldOr (v : Val) (name : String) (place : Nat) (P : Val → Prop) (default : Prop) : Prop :=
  Field v name place P ∨
  ((∃ fs, v = .struct fs ∧ ∀ f ∈ fs, f.1 ≠ name) ∨ ∃ vs, v = .seq vs ∧ vs.length ≤ place) ∧ default

/-- The same, if the default is only for structures with names. -/
def FieldOpt (v : Val) (name : String) (place : Nat) (P : Val → Prop) (default : Prop) : Prop :=
  Field v name place P ∨ (∃ fs, v = .struct fs ∧ ∀ f ∈ fs, f.1 ≠ name) ∧ default

/-- A sequence is not longer than the structure. -/
def AtMost (v : Val) (n : Nat) : Prop := ∀ vs, v = .seq vs → vs.length ≤ n

/-- A variant that holds nothing, of one of these names. -/
def Named (names : List (String × α)) (a : α) (v : Val) : Prop := ∃ n, v = .variant n .unit ∧ (n, a) ∈ names

/-- An operation, or none. -/
def SaysOp (pd : Serde PD) (o : Option (ContourOp (MContour PD))) (v : Val) : Prop :=
  (v = .none ∧ o = none) ∨ ∃ u o', v = .some u ∧ o = some o' ∧ deOp (contour pd).de u = some o'

end GP.Spec
