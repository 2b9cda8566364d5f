import Verif.Spec.NoLeak
import Verif.Model.Cfm
/-! # What C60 means -/
namespace FT
open Spec

/-- The entities of two data sets show the same at time `t`, and the conditions of C25 on secondary time indexes. -/
structure Spec.SameUntil (a : CfmArgs) (e : String) (ent' : String → Option Ent) (t : Int) : Prop where
  same : ∀ x, SameAt { a.env with timeLast := t } (a.env.ent x) (ent' x)
  apart : ∀ x ent, a.env.ent x = some ent → SecondaryApart ent
  keys : KeysKnown a.env a.features e

/-- The call with other data. -/
abbrev Spec.withData (a : CfmArgs) (ent' : String → Option Ent) : CfmArgs := { a with env := { a.env with ent := ent' } }

end FT
