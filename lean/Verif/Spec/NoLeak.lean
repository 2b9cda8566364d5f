import Verif.Spec.Query
import Verif.Spec.Calculator
/-! # Entity sets that show the same data at a cutoff -/
namespace FT.Spec

/-- The start of the training window, if there is one. -/
def windowStart : Option Window → Option (Int → Int)
  | some (.span s) => some s
  | _ => none

/-- The row is visible at the cutoff of the computation. -/
def Visible (env : Env) (ent : Ent) (r : Row) : Prop :=
  BeforeCutoff ent (some env.timeLast) env.includeCutoff r ∧
  InWindow ent (some env.timeLast) (windowStart env.window) env.includeCutoff r

open Classical in
/-- Two tables for one entity that show the same at the cutoff: the visible rows correspond one to one, in order, and agree
in every cell that is known at the cutoff. Rows that are not visible, and cells not yet known, may differ in any way. -/
structure SameShown (env : Env) (a b : Ent) : Prop where
  index : a.index = b.index
  timeIndex : a.timeIndex = b.timeIndex
  secondary : a.secondary = b.secondary
  cols : a.df.cols = b.df.cols
  rows : ∃ pairs : List (Row × Row),
    (a.df.rows.filter fun r => decide (Visible env a r)) = pairs.map Prod.fst ∧
    (b.df.rows.filter fun r => decide (Visible env b r)) = pairs.map Prod.snd ∧
    ∀ pr ∈ pairs, ∀ c,
      (NotYetKnown a (some env.timeLast) pr.1 c ↔ NotYetKnown b (some env.timeLast) pr.2 c) ∧
      (¬ NotYetKnown a (some env.timeLast) pr.1 c → pr.1 c = pr.2 c)

/-- No secondary time index hides another one that is handled later (see the finding for C11). -/
def SecondaryApart (ent : Ent) : Prop := ent.secondary.Pairwise fun s s' => s'.1 ∉ s.2

/-- The column is not one that a secondary time index of the entity hides. -/
def NeverHidden (env : Env) (e c : String) : Prop := ∀ ent, env.ent e = some ent → ∀ s ∈ ent.secondary, c ∉ s.2

/-- No secondary time index hides the index of the target entity or a column that links entities. -/
def KeysKnown (env : Env) (targets : List Feat) (e : String) : Prop :=
  (∀ ent, env.ent e = some ent → NeverHidden env e ent.index) ∧
  ∀ g, NeededBy targets g → ∀ ed ∈ g.path, NeverHidden env ed.2.childE ed.2.childV ∧ NeverHidden env ed.2.parentE ed.2.parentV

/-- Both miss the entity, or both have it and show the same. -/
def SameAt (env : Env) (x y : Option Ent) : Prop :=
  (x = none ∧ y = none) ∨ ∃ a b, x = some a ∧ y = some b ∧ SameShown env a b

end FT.Spec
