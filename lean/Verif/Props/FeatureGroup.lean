import Verif.Lemmas.FeatureGroup
/-! # C23: grouping of features -/
namespace FT
open Spec

/-- C23: the groups are a partition of the given features. -/
theorem C23_partition (rels : List Relationship) (fs : List Feat) :
    (groupFeatures rels fs).flatten.Perm fs ∧ ∀ g ∈ groupFeatures rels fs, g ≠ [] := by
  rw [groupFeatures_def]
  exact ⟨by rw [groupRuns_flatten]; exact isort_perm _ _, groupRuns_ne_nil _ _⟩

theorem uniqueName_ne_empty (f : Feat) : f.uniqueName ≠ "" := by
  intro h
  have := congrArg String.toList h
  simp [Feat.uniqueName, String.toList_append] at this

theorem className_eq {a b : Feat} (h : className a = className b) :
    match a.kind, b.kind with
    | .identity _, .identity _ => True
    | .direct _, .direct _ => True
    | .agg _ _ _ _, .agg _ _ _ _ => True
    | .trans _, .trans _ => True
    | .groupby _, .groupby _ => True
    | .slice _, .slice _ => True
    | _, _ => False := by
  unfold className at h
  cases ha : a.kind <;> cases hb : b.kind <;> simp [ha, hb] at h ⊢

theorem prevKey_inj {pa pb : Option (Dict Int)} (ha : ∀ v, pa ≠ some [("", v)]) (hb : ∀ v, pb ≠ some [("", v)])
    (h : (singleUnit pa).getD ("", -1) = (singleUnit pb).getD ("", -1)) : singleUnit pa = singleUnit pb := by
  cases hx : singleUnit pa with
  | none =>
    cases hy : singleUnit pb with
    | none => rfl
    | some y =>
      rw [hx, hy] at h
      simp only [Option.getD_none, Option.getD_some] at h
      subst h
      unfold singleUnit at hy
      split at hy
      · cases hy; exact absurd rfl (hb (-1))
      · cases hy
  | some x =>
    cases hy : singleUnit pb with
    | none =>
      rw [hx, hy] at h
      simp only [Option.getD_none, Option.getD_some] at h
      subst h
      unfold singleUnit at hx
      split at hx
      · cases hx; exact absurd rfl (ha (-1))
      · cases hx
    | some y => rw [hx, hy] at h; exact congrArg some h

theorem getUsePrevious_agg {f : Feat} {p prim prev u} (h : f.kind = .agg p prim prev u) :
    getUsePrevious f = (singleUnit prev).getD ("", -1) := by
  unfold getUsePrevious singleUnit
  rw [h]
  rcases prev with _ | l
  · rfl
  · rcases l with _ | ⟨x, _ | ⟨y, l⟩⟩ <;> rfl

theorem nameKey_inj {x y : Option Feat} (h : (x.map Feat.uniqueName).getD "" = (y.map Feat.uniqueName).getD "") :
    x.map Feat.uniqueName = y.map Feat.uniqueName := by
  cases x with
  | none =>
    cases y with
    | none => rfl
    | some y => exact absurd h.symm (uniqueName_ne_empty y)
  | some x =>
    cases y with
    | none => exact absurd h (uniqueName_ne_empty x)
    | some y => exact congrArg some h

theorem getWhere_agg {f : Feat} {p prim prev u} (h : f.kind = .agg p prim prev u) :
    getWhere f = (f.wh.head?.map Feat.uniqueName).getD "" := by
  unfold getWhere; rw [h]; cases f.wh <;> rfl

theorem getGroupby_eq {f : Feat} {p} (h : f.kind = .groupby p) :
    getGroupby f = (f.bases.getLast?.map Feat.uniqueName).getD "" := by
  unfold getGroupby; rw [h]; cases f.bases.getLast? <;> rfl

theorem alike_iff (rels : List Relationship) {a b : Feat} (ha : NamedUnit a) (hb : NamedUnit b) :
    Alike rels a b ↔ (className a = className b ∧ a.pathName rels = b.pathName rels ∧ getWhere a = getWhere b ∧
      getGroupby a = getGroupby b ∧ a.usesFull = b.usesFull ∧ getUsePrevious a = getUsePrevious b) := by
  unfold NamedUnit at ha hb
  constructor
  · rintro ⟨hp, h⟩
    cases hka : a.kind with
    | agg p prim prev u =>
      cases hkb : b.kind <;> simp only [hka, hkb] at h
      refine ⟨by unfold className; rw [hka, hkb], hp, ?_, by simp [getGroupby, hka, hkb], by simp [Feat.usesFull, hka, hkb], ?_⟩
      · rw [getWhere_agg hka, getWhere_agg hkb, h.1]
      · rw [getUsePrevious_agg hka, getUsePrevious_agg hkb, h.2]
    | groupby p =>
      cases hkb : b.kind <;> simp only [hka, hkb] at h
      refine ⟨by unfold className; rw [hka, hkb], hp, by simp [getWhere, hka, hkb], ?_, by simp [Feat.usesFull, hka, hkb, h.1], by simp [getUsePrevious, hka, hkb]⟩
      rw [getGroupby_eq hka, getGroupby_eq hkb, h.2]
    | _ =>
      cases hkb : b.kind <;> simp only [hka, hkb] at h
      exact ⟨by unfold className; rw [hka, hkb], hp, by simp [getWhere, hka, hkb], by simp [getGroupby, hka, hkb],
        by simp [Feat.usesFull, hka, hkb] <;> exact h, by simp [getUsePrevious, hka, hkb]⟩
  · rintro ⟨hc, hp, hw, hg, hu, hv⟩
    have hc := className_eq hc
    refine ⟨hp, ?_⟩
    cases hka : a.kind with
    | agg p prim prev u =>
      cases hkb : b.kind <;> simp only [hka, hkb] at hc ⊢
      rw [getWhere_agg hka, getWhere_agg hkb] at hw
      rw [getUsePrevious_agg hka, getUsePrevious_agg hkb] at hv
      exact ⟨nameKey_inj hw, prevKey_inj (fun v e => ha _ _ v _ (e ▸ hka)) (fun v e => hb _ _ v _ (e ▸ hkb)) hv⟩
    | groupby p =>
      cases hkb : b.kind <;> simp only [hka, hkb] at hc ⊢
      rw [getGroupby_eq hka, getGroupby_eq hkb] at hg
      simp only [Feat.usesFull, hka, hkb] at hu
      exact ⟨hu, nameKey_inj hg⟩
    | trans p =>
      cases hkb : b.kind <;> simp only [hka, hkb] at hc ⊢
      simpa only [Feat.usesFull, hka, hkb] using hu
    | _ => cases hkb : b.kind <;> simp only [hka, hkb] at hc ⊢

theorem groupKey_alike (rels : List Relationship) (fs : List Feat) :
    ∀ g ∈ groupFeatures rels fs, ∀ a ∈ g, ∀ b ∈ g,
      className a = className b ∧ a.pathName rels = b.pathName rels ∧ getWhere a = getWhere b ∧
      getGroupby a = getGroupby b ∧ a.usesFull = b.usesFull ∧ getUsePrevious a = getUsePrevious b := by
  intro g hg a ha b hb
  have h := groupRuns_same (fullKey rels fs) _ g (by rw [← groupFeatures_def]; exact hg) a ha b hb
  simp only [fullKey, groupKey, List.cons.injEq, and_true] at h
  obtain ⟨_, h1, h2, h3, h4, h5, h6, h7⟩ := h
  refine ⟨codes_inj h2, codes_inj h1, codes_inj h5, codes_inj h7, ?_, Prod.ext (codes_inj h3) h4⟩
  cases hu : a.usesFull <;> cases hv : b.usesFull <;> simp [hu, hv] at h6 <;> rfl

/-- C23: features in one group are alike: same class, relationship path, condition, group-by feature and use of the full
entity, and the same single-unit `use_previous` (or none, or one of several units: see the last theorem). -/
theorem C23_alike (rels : List Relationship) (fs : List Feat) (hu : ∀ f ∈ fs, NamedUnit f) :
    ∀ g ∈ groupFeatures rels fs, ∀ a ∈ g, ∀ b ∈ g, Alike rels a b := by
  intro g hg a ha b hb
  have hm : ∀ x ∈ g, x ∈ fs := fun x hx => (C23_partition rels fs).1.mem_iff.mp (List.mem_flatten.mpr ⟨g, hg, hx⟩)
  rw [alike_iff rels (hu a (hm a ha)) (hu b (hm b hb))]
  exact groupKey_alike rels fs g hg a ha b hb

/-- C23: path names. An aggregation along the only path to an entity is grouped by that entity; other paths are told apart by all
their steps. -/
theorem C23_path_names (rels : List Relationship) (f : Feat) :
    (∀ path p prev, f.kind = .agg path p prev true → ∀ b bs, f.bases = b :: bs → f.pathName rels = b.entity) ∧
    (∀ path p prev, f.kind = .agg path p prev false → ∀ ns : List String, ns.length = path.length →
      (∀ (i : Nat) r n, path[i]? = some r → ns[i]? = some n → r.childName? rels = some n) →
      f.pathName rels = String.intercalate "." ns) ∧
    (∀ r n, f.kind = .direct r → r.parentName? rels = some n → f.pathName rels = n) := by
  refine ⟨fun path p prev h b bs hb => by simp [Feat.pathName, h, hb], fun path p prev h ns hl hn => ?_, fun r n h hn => ?_⟩
  · have hp : f.path = path.map fun r => (false, r) := by simp [Feat.path, h, Kind.path]
    simp only [Feat.pathName, h, hp, FT.pathName, List.map_map]
    congr 1
    apply List.ext_getElem? 
    intro i
    by_cases hi : i < path.length
    · have h1 : path[i]? = some path[i] := List.getElem?_eq_getElem hi
      have h2 : ns[i]? = some (ns[i]'(by omega)) := List.getElem?_eq_getElem _
      simp [h1, h2, hn i _ _ h1 h2]
    · rw [List.getElem?_eq_none (by simp; omega), List.getElem?_eq_none (by omega)]
  · simp [Feat.pathName, h, Feat.path, Kind.path, FT.pathName, hn]

theorem groupKey_one_group (rels : List Relationship) (fs : List Feat) (i j : Nat) (a b : Feat)
    (hi : InGroup (groupFeatures rels fs) i a) (hj : InGroup (groupFeatures rels fs) j b) (hij : i ≠ j) :
    (featureDepths fs a.uniqueName).getD 0 ≠ (featureDepths fs b.uniqueName).getD 0 ∨
    className a ≠ className b ∨ a.pathName rels ≠ b.pathName rels ∨ getWhere a ≠ getWhere b ∨
    getGroupby a ≠ getGroupby b ∨ a.usesFull ≠ b.usesFull ∨ getUsePrevious a ≠ getUsePrevious b := by
  have key : ∀ (i j : Nat) (a b : Feat), InGroup (groupFeatures rels fs) i a → InGroup (groupFeatures rels fs) j b →
      i < j → fullKey rels fs a ≠ fullKey rels fs b := by
    intro i j a b hi hj hlt heq
    obtain ⟨g1, h1, ha⟩ := hi
    obtain ⟨g2, h2, hb⟩ := hj
    obtain ⟨hj', _⟩ := List.getElem?_eq_some_iff.mp h2
    obtain ⟨g3, h3⟩ : ∃ g3, (groupFeatures rels fs)[i+1]? = some g3 :=
      ⟨_, List.getElem?_eq_getElem (by omega)⟩
    have hne : g3 ≠ [] := (C23_partition rels fs).2 g3 (List.mem_of_getElem? h3)
    obtain ⟨c, hc⟩ := List.exists_mem_of_ne_nil _ hne
    have hadj := groupRuns_adjacent (fullKey rels fs) _ i g1 g3 (by rw [← groupFeatures_def]; exact h1)
      (by rw [← groupFeatures_def]; exact h3) a ha c hc
    have hac := groupFeatures_lt rels fs ⟨g1, h1, ha⟩ ⟨g3, h3, hc⟩ (Nat.lt_succ_self i)
    have hcb : keyLe (fullKey rels fs c) (fullKey rels fs b) = true := by
      rcases Nat.lt_or_ge (i+1) j with h | h
      · exact groupFeatures_lt rels fs ⟨g3, h3, hc⟩ ⟨g2, h2, hb⟩ h
      · have : j = i + 1 := by omega
        subst this
        have h23 : g3 = g2 := by rw [h3] at h2; exact Option.some.inj h2
        rw [← h23] at hb
        have := groupRuns_same (fullKey rels fs) _ g3 (by rw [← groupFeatures_def]; exact List.mem_of_getElem? h3) c hc b hb
        rw [this]
        have := keyLe_total (fullKey rels fs b) (fullKey rels fs b)
        simpa using this
    rw [← heq] at hcb
    exact hadj (keyLe_antisymm _ _ hac hcb)
  have hne : fullKey rels fs a ≠ fullKey rels fs b := by
    rcases Nat.lt_or_gt_of_ne hij with h | h
    · exact key i j a b hi hj h
    · exact fun e => key j i b a hj hi h e.symm
  apply Classical.byContradiction
  intro hcon
  simp only [not_or, Classical.not_not] at hcon
  obtain ⟨h1, h2, h3, h4, h5, h6, h7⟩ := hcon
  exact hne (by simp only [fullKey, groupKey, h1, h2, h3, h4, h5, h6, h7])

/-- C23: features which are alike and at the same depth share a group. -/
theorem C23_one_group_per_key (rels : List Relationship) (fs : List Feat) (hu : ∀ f ∈ fs, NamedUnit f) (i j : Nat) (a b : Feat)
    (hi : InGroup (groupFeatures rels fs) i a) (hj : InGroup (groupFeatures rels fs) j b) (hal : Alike rels a b)
    (hd : featureDepths fs a.uniqueName = featureDepths fs b.uniqueName) : i = j := by
  have hm : ∀ k x, InGroup (groupFeatures rels fs) k x → x ∈ fs := by
    rintro k x ⟨g, hg, hx⟩
    exact (C23_partition rels fs).1.mem_iff.mp (List.mem_flatten.mpr ⟨g, List.mem_of_getElem? hg, hx⟩)
  rw [alike_iff rels (hu a (hm i a hi)) (hu b (hm j b hj))] at hal
  obtain ⟨h1, h2, h3, h4, h5, h6⟩ := hal
  apply Classical.byContradiction
  intro hij
  have := groupKey_one_group rels fs i j a b hi hj hij
  simp [hd, h1, h2, h3, h4, h5, h6] at this

/-- C23: when two features of the list depend on each other on the same entity, the dependency is in an earlier group. -/
theorem C23_dependencies_first (rels : List Relationship) (fs : List Feat) (hinj : NamesIdentify fs)
    (f d : Feat) (hf : f ∈ fs) (hdep : SameEntityDep f d) (i j : Nat)
    (hi : InGroup (groupFeatures rels fs) i d) (hj : InGroup (groupFeatures rels fs) j f) : i < j := by
  obtain ⟨k, hk⟩ := Option.isSome_iff_exists.mp ((featureDepths_spec fs hinj).1 f hf)
  obtain ⟨k', hk', hlt⟩ := sameEntity_lower fs hinj hdep ⟨f, hf, .inl rfl⟩ k hk
  have hle : keyLe (fullKey rels fs f) (fullKey rels fs d) = true → False := by
    intro h
    simp only [fullKey, hk, hk', Option.getD_some, groupKey] at h
    have := keyLe_head _ _ _ _ h
    omega
  rcases Nat.lt_trichotomy i j with h | h | h
  · exact h
  · exfalso
    subst h
    obtain ⟨g1, h1, ha⟩ := hi
    obtain ⟨g2, h2, hb⟩ := hj
    rw [h1] at h2; cases h2
    have := groupRuns_same (fullKey rels fs) _ g1 (by rw [← groupFeatures_def]; exact List.mem_of_getElem? h1) f hb d ha
    apply hle
    rw [this]
    simpa using keyLe_total (fullKey rels fs d) (fullKey rels fs d)
  · exact absurd (groupFeatures_lt rels fs hj hi h) hle

section examples
private def idf (e v : String) : Feat := .mk ⟨e, v, [v], .null, .identity v⟩ [] []
private def tr (e n : String) (bs : List Feat) : Feat := .mk ⟨e, n, [n], .null, .trans ⟨false, false, fun _ c => c⟩⟩ bs []
private def rSL : Relationship := ⟨"sessions", "id", "log", "session_id"⟩
private def ag (n : String) (names : List String) (prev : Option (Dict Int)) : Feat :=
  .mk ⟨"sessions", n, names, .null, .agg [rSL] ⟨false, fun _ _ => []⟩ prev true⟩ [idf "log" "x"] []

/-- A concrete case: `b = T(a)`, `c = U(b, a)`, given in the wrong order, come out as `a`, `b`, `c`. -/
example : let a := idf "log" "a"; let b := tr "log" "T(a)" [a]; let c := tr "log" "U(T(a), a)" [b, a]
    (groupFeatures [rSL] [c, a, b]).map (·.map Feat.name) = [["a"], ["T(a)"], ["U(T(a), a)"]] := by decide

/-- The hypotheses of `C23_alike` and `C23_one_group_per_key` are met: two aggregations over the last hour share a group, one over
two hours and one without a window are in others. -/
example : let a := ag "SUM(log.x, Last 1 Hour)" ["a"] (some [("h", 1)]); let b := ag "MAX(log.x, Last 1 Hour)" ["b"] (some [("h", 1)])
    let c := ag "SUM(log.x, Last 2 Hours)" ["c"] (some [("h", 2)]); let d := ag "SUM(log.x)" ["d"] none
    (∀ f ∈ [a, b, c, d], NamedUnit f) ∧
    (groupFeatures [rSL] [a, c, d, b]).map (·.map Feat.names) = [[["d"]], [["a"], ["b"]], [["c"]]] := by
  refine ⟨?_, by decide⟩
  intro f hf p prim v u h
  simp only [List.mem_cons, List.not_mem_nil, or_false] at hf
  rcases hf with rfl | rfl | rfl | rfl <;> simp [ag, Feat.kind, Feat.info] at h

/-- C23 fails for slices: a transform of one output of an aggregation is put before the aggregation itself, because the
slice carries the relationship path of the aggregation and its dependencies are not looked at. -/
theorem C23_slice_of_aggregation_first :
    let m := ag "N_MOST_COMMON(log.x)" ["N[0]", "N[1]"] none
    let s : Feat := .mk ⟨"sessions", "N[0]", ["N[0]"], .null, .slice 0⟩ [m] []
    let t := tr "sessions" "IS_NULL(N[0])" [s]
    (groupFeatures [rSL] [t, m]).map (·.map Feat.name) = [["IS_NULL(N[0])"], ["N_MOST_COMMON(log.x)"]] ∧
    m ∈ s.bases ∧ s ∈ t.bases := by
  exact ⟨by decide, by simp, by simp [tr]⟩

/-- C23 fails for `use_previous` with several units: aggregations over different windows are put in one group
(and the whole group is then computed with the window of its first member). -/
theorem C23_multi_unit_windows_grouped :
    let a := ag "SUM(log.x, Last 1 Hour 30 Minutes)" ["a"] (some [("h", 1), ("m", 30)])
    let b := ag "SUM(log.x, Last 2 Hours 15 Minutes)" ["b"] (some [("h", 2), ("m", 15)])
    let c := ag "SUM(log.x)" ["c"] none
    (groupFeatures [rSL] [a, b, c]).map (·.map Feat.names) = [[["a"], ["b"], ["c"]]] := by decide
end examples

end FT
