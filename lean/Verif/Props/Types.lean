import Verif.Lemmas.OptionsSpec
import Verif.Spec.Types
import Verif.Props.DfsWitness
/-!
# The types of features: theorems
-/
namespace FT
open FT.Spec

theorem keptType_iff (s t : String) : Calculated s t ↔ DFeat.keptType s = t := by
  unfold DFeat.keptType
  constructor
  · intro h
    cases h with
    | time => rfl
    | number => rfl
    | index => rfl
    | id => rfl
    | other h1 h2 h3 h4 => rw [if_neg h1, if_neg h2, if_neg h3, if_neg h4]
  · rintro rfl
    by_cases h1 : s = "DatetimeTimeIndex"
    · subst h1; exact .time
    · rw [if_neg h1]
      by_cases h2 : s = "NumericTimeIndex"
      · subst h2; exact .number
      · rw [if_neg h2]
        by_cases h3 : s = "Index"
        · subst h3; exact .index
        · rw [if_neg h3]
          by_cases h4 : s = "Id"
          · subst h4; exact .id
          · rw [if_neg h4]; exact .other h1 h2 h3 h4

theorem resultType_iff (p : Prim) (s t : String) : ResultType p s t ↔ p.ret.getD (DFeat.keptType s) = t := by
  unfold ResultType
  cases p.ret with
  | none => simp [keptType_iff]
  | some x => simp

/-- C39: every feature has one type, and it is as specified. -/
theorem C39_types {f : DFeat} (hf : Proper f) (t : String) : OfType f t ↔ f.vtype = t := by
  induction hf generalizing t with
  | identity v s e n =>
    exact ⟨fun h => by cases h; rfl, fun h => by cases h; exact .identity ..⟩
  | direct r e n hb ih =>
    simp only [DFeat.vtype]
    exact ⟨fun h => by cases h with | direct h => exact (ih t).mp h, fun h => .direct ((ih t).mpr h)⟩
  | @slice i e n b hb ih =>
    simp only [DFeat.vtype]
    have hbe := prim_behind hb
    constructor
    · intro h
      cases h with
      | slice hm hr => rw [madeBy_prim hm, hr]; rfl
      | sliceCalculated hm hs hc =>
        have : b.prim.ret = none := by
          rcases hbe with h | ⟨_, h⟩
          · exact hm _ h
          · rw [h]; rfl
        rw [this, (ih _).mp hs]
        exact (keptType_iff _ _).mp hc
    · intro h
      cases hr : b.prim.ret with
      | some x =>
        rw [hr] at h
        cases h
        rcases hbe with hm | ⟨_, hp⟩
        · exact .slice hm hr
        · rw [hp] at hr; cases hr
      | none =>
        rw [hr] at h
        exact .sliceCalculated (fun p hm => by rw [← madeBy_prim hm]; exact hr) ((ih _).mpr rfl) ((keptType_iff _ _).mpr h)
  | @trans p e n bs hne hb ih =>
    obtain ⟨b, bs, rfl⟩ := List.exists_cons_of_ne_nil hne
    simp only [DFeat.vtype]
    constructor
    · intro h
      cases h with | trans hs hr => rw [(ih b (by simp) _).mp hs]; exact (resultType_iff ..).mp hr
    · intro h
      exact .trans ((ih b (by simp) _).mpr rfl) ((resultType_iff ..).mpr h)
  | @groupby p e n bs hne hb ih =>
    obtain ⟨b, bs, rfl⟩ := List.exists_cons_of_ne_nil hne
    simp only [DFeat.vtype]
    constructor
    · intro h
      cases h with | groupby hs hr => rw [(ih b (by simp) _).mp hs]; exact (resultType_iff ..).mp hr
    · intro h
      exact .groupby ((ih b (by simp) _).mpr rfl) ((resultType_iff ..).mpr h)
  | @agg path p e n bs ws hne hb hw hws ih _ =>
    obtain ⟨b, bs, rfl⟩ := List.exists_cons_of_ne_nil hne
    simp only [DFeat.vtype]
    constructor
    · intro h
      cases h with | agg hs hr => rw [(ih b (by simp) _).mp hs]; exact (resultType_iff ..).mp hr
    · intro h
      exact .agg ((ih b (by simp) _).mpr rfl) ((resultType_iff ..).mpr h)

/-- C39: nothing that is calculated is a key or the time index, unless its primitive says so. -/
theorem C39_no_new_keys {f : DFeat} (hf : Proper f) (p : Prim) (hm : MadeBy p f) (hr : ∀ q, MadeBy q f → q.ret = none) :
    f.vtype ∉ ["Index", "Id", "DatetimeTimeIndex", "NumericTimeIndex"] := by
  have hc : ∀ s t, Calculated s t → t ∉ ["Index", "Id", "DatetimeTimeIndex", "NumericTimeIndex"] := by
    intro s t h
    cases h with
    | other h1 h2 h3 h4 => simp [h1, h2, h3, h4]
    | _ => decide
  have hp := hr p hm
  have ht := (C39_types hf _).mpr rfl
  generalize f.vtype = t at ht ⊢
  cases hm with
  | agg =>
    cases ht with | agg _ h => rcases h with h | h; rw [hp] at h; cases h; exact hc _ _ h.2
  | trans =>
    cases ht with | trans _ h => rcases h with h | h; rw [hp] at h; cases h; exact hc _ _ h.2
  | groupby =>
    cases ht with | groupby _ h => rcases h with h | h; rw [hp] at h; cases h; exact hc _ _ h.2
  | slice i e n ws hb =>
    cases ht with
    | slice hm h => rw [hr _ (.slice i e n ws hm)] at h; cases h
    | sliceCalculated _ _ h => exact hc _ _ h

/-- The last session of a customer, by its key: a category. -/
example : OfType (.mk (.agg [] { DfsExample.sum with ret := none }) "customers" "LAST(sessions.id)"
    [.mk (.identity "id" "Index") "sessions" "id" [] []] []) "Categorical" :=
  .agg (.identity ..) (.inr ⟨rfl, .index⟩)

end FT
