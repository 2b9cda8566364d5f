import Verif.Lemmas.Describe2
/-!
# Which features have a description
-/
namespace FT
open Spec

theorem entry_or (C : GCustom) (e n : String) : (∃ d, Entry C e n d) ∨ NoEntry C e n := by
  cases h1 : C.features.lookup (e, n) with
  | some d => exact .inl ⟨d, .inl h1⟩
  | none =>
    cases h2 : C.names.lookup (e ++ ": " ++ n) with
    | some d => exact .inl ⟨d, .inr ⟨h1, h2⟩⟩
    | none => exact .inr ⟨h1, h2⟩

theorem withoutThe_exists (d : String) : ∃ t, WithoutThe d t := by
  by_cases h : ∃ r, d = "the " ++ r
  · obtain ⟨r, h⟩ := h; exact ⟨r, .inl h⟩
  · exact ⟨d, .inr ⟨rfl, fun r e => h ⟨r, e⟩⟩⟩

theorem groupName_exists (C : GCustom) (e i : String) : ∃ g, GroupName C e i g := by
  rcases entry_or C e i with ⟨d, h⟩ | h
  · exact ⟨d, .inl h⟩
  · exact ⟨_, .inr ⟨h, rfl⟩⟩

theorem sentence_ok {upper : String → String} {d s : String} (h : Sentence upper d s) :
    upper (String.ofList (d.toList.take 1)) ++ String.ofList (d.toList.drop 1) ++ "." = s := by
  rcases h with ⟨rfl, rfl⟩ | ⟨c, r, rfl, rfl⟩
  · simp
  · have h1 : (String.singleton c ++ r).toList = c :: r.toList := by simp
    rw [h1]
    simp [String.ofList_toList]
    

theorem sentence_exists (upper : String → String) (d : String) : ∃ s, Sentence upper d s := by
  cases h : d.toList with
  | nil => exact ⟨_, .inl ⟨String.toList_inj.mp (by simp [h]), rfl⟩⟩
  | cons c r => exact ⟨_, .inr ⟨c, String.ofList r, String.toList_inj.mp (by simp [h]), rfl⟩⟩

section
variable {upper : String → String} {C : GCustom}

theorem readsAll_length : ∀ {fs : List GFeat} {ds : List String}, ReadsAll upper C fs ds → ds.length = fs.length
  | _, _, .nil => rfl
  | _, _, .cons _ h => by simp [readsAll_length h]

/-- A description, and one of the feature at the end of a chain of direct features. -/
def Told (upper : String → String) (C : GCustom) (f : GFeat) : Prop :=
  (∃ d, Reads upper C f d) ∧ ∀ p e n bs wh, f = .mk (.direct p) e n bs wh → ∃ g s d, Through f g s ∧ Reads upper C g d

theorem told_of_not_direct {f : GFeat} (h : ∃ d, Reads upper C f d) (hf : ∀ p e n bs wh, f ≠ .mk (.direct p) e n bs wh) :
    Told upper C f := ⟨h, fun p e n bs wh he => absurd he (hf p e n bs wh)⟩

mutual
theorem describable_told : ∀ {f : GFeat}, Tellable upper C f → Told upper C f
  | _, .identity (d := d) (e := e) (n := n) => by
    refine told_of_not_direct ?_ nofun
    rcases entry_or C e n with ⟨d, h⟩ | h
    · exact ⟨d, .custom h⟩
    · exact ⟨_, .column h⟩
  | _, .direct (e := e) (n := n) (g := g) hg => by
    have ih := describable_told hg
    have key : ∀ p bs wh, ∃ k s d, Through (.mk (.direct p) e n (g :: bs) wh) k s ∧ Reads upper C k d := by
      intro p bs wh
      by_cases hd : ∃ p e n bs wh, g = .mk (.direct p) e n bs wh
      · obtain ⟨p', e', n', bs', wh', hd⟩ := hd
        obtain ⟨k, s, d, ht, hr⟩ := ih.2 _ _ _ _ _ hd
        exact ⟨k, _, d, .step ht, hr⟩
      · obtain ⟨d, hr⟩ := ih.1
        exact ⟨g, _, d, .last fun q e' n' l w he => hd ⟨q, e', n', l, w, he⟩, hr⟩
    refine ⟨?_, fun _ _ _ _ _ _ => key _ _ _⟩
    rcases entry_or C e n with ⟨d, h⟩ | h
    · exact ⟨d, .custom h⟩
    · obtain ⟨k, s, d, ht, hr⟩ := key _ _ _
      exact ⟨_, .parent h ht hr⟩
  | _, .transform (e := e) (n := n) hb hs => by
    refine told_of_not_direct ?_ nofun
    rcases entry_or C e n with ⟨d, h⟩ | h
    · exact ⟨d, .custom h⟩
    · obtain ⟨ds, hds⟩ := describableAll_told hb
      obtain ⟨s, hn, hsay⟩ := hs ds (readsAll_length hds)
      exact ⟨_, .transform h hds hsay hn⟩
  | _, .groupby (e := e) (n := n) hb hg hs => by
    refine told_of_not_direct ?_ nofun
    rcases entry_or C e n with ⟨d, h⟩ | h
    · exact ⟨d, .custom h⟩
    · obtain ⟨ds, hds⟩ := describableAll_told hb
      obtain ⟨s, hn, hsay⟩ := hs ds (readsAll_length hds)
      obtain ⟨⟨d, hd⟩, _⟩ := describable_told hg
      obtain ⟨t, ht⟩ := withoutThe_exists d
      exact ⟨_, .groupby h hds hd ht hsay hn⟩
  | _, .agg (e := e) (n := n) (index := index) hb hs hc => by
    refine told_of_not_direct ?_ nofun
    rcases entry_or C e n with ⟨d, h⟩ | h
    · exact ⟨d, .custom h⟩
    · obtain ⟨ds, hds⟩ := describableAll_told hb
      obtain ⟨s, hn, hsay⟩ := hs ds (readsAll_length hds)
      obtain ⟨w, hw⟩ := condition_told hc
      obtain ⟨g, hg⟩ := groupName_exists C e index
      obtain ⟨t, ht⟩ := withoutThe_exists g
      exact ⟨_, .agg h hds hsay hn hw hg ht⟩
  | _, .transformOutput (e := e) (n := n) hb hs => by
    refine told_of_not_direct ?_ nofun
    rcases entry_or C e n with ⟨d, h⟩ | h
    · exact ⟨d, .custom h⟩
    · obtain ⟨ds, hds⟩ := describableAll_told hb
      obtain ⟨s, hn, hsay⟩ := hs ds (readsAll_length hds)
      exact ⟨_, .transformOutput h hds hsay hn⟩
  | _, .aggOutput (e := e) (n := n) (e' := e') (index := index) hb hs hc => by
    refine told_of_not_direct ?_ nofun
    rcases entry_or C e n with ⟨d, h⟩ | h
    · exact ⟨d, .custom h⟩
    · obtain ⟨ds, hds⟩ := describableAll_told hb
      obtain ⟨s, hn, hsay⟩ := hs ds (readsAll_length hds)
      obtain ⟨w, hw⟩ := condition_told hc
      obtain ⟨g, hg⟩ := groupName_exists C e' index
      obtain ⟨t, ht⟩ := withoutThe_exists g
      exact ⟨_, .aggOutput h hds hsay hn hw hg ht⟩
theorem describableAll_told : ∀ {fs : List GFeat}, TellableAll upper C fs → ∃ ds, ReadsAll upper C fs ds
  | _, .nil => ⟨_, .nil⟩
  | _, .cons h hs => by
    obtain ⟨⟨d, hd⟩, _⟩ := describable_told h
    obtain ⟨ds, hds⟩ := describableAll_told hs
    exact ⟨_, .cons hd hds⟩
theorem condition_told : ∀ {wh : List GFeat}, ScalarCondition upper C wh → ∃ w, Condition upper C wh w
  | _, .none => ⟨_, .none⟩
  | _, .some h hv => by
    obtain ⟨⟨d, hd⟩, _⟩ := describable_told h
    exact ⟨_, .some hd hv⟩
end

end

end FT
