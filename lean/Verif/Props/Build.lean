import Verif.Lemmas.Build
/-!
# C74: features built by hand

Which calls of `Feature`, `DirectFeature`, `AggregationFeature`, `TransformFeature`, `GroupByTransformFeature` and `feature[k]` are
accepted, and what they build.
-/
namespace FT
open Spec

/-- C74: without a relationship, a direct feature can be built exactly if one relationship leads from the child entity to the entity
of the base feature, and it uses that one. -/
theorem C74_direct (rels : List Relationship) (hn : rels.Nodup) (base : BArg) (child : String) (out : NewFeat) :
    handDirect rels base child none = .ok out ↔
      ∃ f r, StandsFor base f ∧ (r ∈ rels ∧ r.childE = child ∧ r.parentE = f.ent.id) ∧
        (∀ s ∈ rels, s.childE = child → s.parentE = f.ent.id → s = r) ∧ out = ⟨.direct r, child, [f], none⟩ := by
  simp only [handDirect]
  constructor
  · intro h
    cases hf : checkFeature base with
    | error e => rw [hf] at h; cases h
    | ok f =>
      rw [hf] at h
      dsimp only at h
      cases hr : handleRelationship rels f.ent.id child none with
      | error e => rw [hr] at h; cases h
      | ok r =>
        rw [hr] at h
        cases h
        obtain ⟨h1, h2⟩ := (handRel_none hn).mp hr
        exact ⟨f, r, checkFeature_ok.mp hf, h1, h2, rfl⟩
  · rintro ⟨f, r, hf, h1, h2, rfl⟩
    simp only [checkFeature_ok.mpr hf, (handRel_none hn).mpr ⟨h1, h2⟩]

/-- C74: with no such relationship, or more than one, it is a `RuntimeError`. -/
theorem C74_direct_ambiguous (rels : List Relationship) (hn : rels.Nodup) (base : BArg) (child : String) (f : BFeat)
    (hf : StandsFor base f)
    (h : ¬∃ r, (r ∈ rels ∧ r.childE = child ∧ r.parentE = f.ent.id) ∧
      ∀ s ∈ rels, s.childE = child → s.parentE = f.ent.id → s = r) :
    handDirect rels base child none = .error .runtimeError := by
  simp only [handDirect, checkFeature_ok.mpr hf]
  cases hr : handleRelationship rels f.ent.id child none with
  | ok r => exact absurd ⟨r, (handRel_none hn).mp hr⟩ h
  | error e =>
    simp only [handleRelationship] at hr
    split at hr <;> cases hr <;> rfl

/-- C74: a relationship that is given is used exactly if it leads from the child entity to the entity of the base feature. -/
theorem C74_direct_given (rels : List Relationship) (base : BArg) (child : String) (r : Relationship) (out : NewFeat) :
    handDirect rels base child (some r) = .ok out ↔
      ∃ f, StandsFor base f ∧ r.childE = child ∧ r.parentE = f.ent.id ∧ out = ⟨.direct r, child, [f], none⟩ := by
  simp only [handDirect]
  constructor
  · intro h
    cases hf : checkFeature base with
    | error e => rw [hf] at h; cases h
    | ok f =>
      rw [hf] at h
      simp only [handleRelationship] at h
      by_cases h1 : child = r.childE
      · by_cases h2 : f.ent.id = r.parentE
        · rw [if_pos h1, if_pos h2] at h
          cases h
          exact ⟨f, checkFeature_ok.mp hf, h1.symm, h2.symm, rfl⟩
        · rw [if_pos h1, if_neg h2] at h; cases h
      · rw [if_neg h1] at h; cases h
  · rintro ⟨f, hf, h1, h2, rfl⟩
    simp only [checkFeature_ok.mpr hf, handleRelationship, h1, h2, if_true]

/-- C74: without a path, an aggregation feature can be built exactly if the base features can be used together, one chain of
relationships leads from their entity up to the parent entity, the condition is on that entity, a window is asked for only where the
time index is a time, and the types fit. It goes down that chain. -/
theorem C74_agg (sub : String → String → Bool) (rels : List Relationship) (hn : rels.Nodup) (bases : BList) (parent : String)
    (p : BPrim) (prev : Option (Except PyErr Timedelta)) (wh : Option BArg) (out : NewFeat) :
    handAgg sub rels bases parent p none prev wh = .ok out ↔
      ∃ fs f c w td, GivenBases bases fs ∧ Usable fs f ∧ OnlyChain rels f.ent.id parent c ∧ WhereGiven f.ent.id wh w ∧
        WindowGiven sub f.ent prev td ∧ TypesFit sub p fs ∧
        out = ⟨.agg (c.reverse.map fun r => (false, r)) true td, parent, fs, w⟩ := by
  rw [handAgg_ok]
  constructor
  · rintro ⟨fs, f, pu, w, td, hg, hu, hp, hw, ht, hi, rfl⟩
    obtain ⟨c, hc, rfl⟩ := (handlePath_none hn).mp hp
    exact ⟨fs, f, c, w, td, hg, hu, hc, hw, ht, hi, rfl⟩
  · rintro ⟨fs, f, c, w, td, hg, hu, hc, hw, ht, hi, rfl⟩
    exact ⟨fs, f, _, w, td, hg, hu, (handlePath_none hn).mpr ⟨c, hc, rfl⟩, hw, ht, hi, rfl⟩

/-- C74: the path it goes leads from the parent entity down to the entity of the base features. -/
theorem C74_agg_path (sub : String → String → Bool) (rels : List Relationship) (hn : rels.Nodup) (bases : BList) (parent : String)
    (p : BPrim) (prev : Option (Except PyErr Timedelta)) (wh : Option BArg) (out : NewFeat)
    (h : handAgg sub rels bases parent p none prev wh = .ok out) :
    out.entity = parent ∧ ∃ f rs td, out.bases.head? = some f ∧ out.kind = .agg (rs.map fun r => (false, r)) true td ∧
      PathDown parent rs f.ent.id ∧ (∀ r ∈ rs, r ∈ rels) ∧ ∀ w, out.wh = some w → w.ent.id = f.ent.id := by
  obtain ⟨fs, f, c, w, td, hg, hu, hc, hw, ht, hi, rfl⟩ := (C74_agg sub rels hn bases parent p prev wh out).mp h
  refine ⟨rfl, f, c.reverse, td, hu.first, rfl, pathDown_of_chain ?_ hc.chain.1, ?_, ?_⟩
  · rintro rfl; exact hc.apart hc.chain.1
  · have : ∀ (q : List Relationship) (x : String), Chain rels x parent q → ∀ r ∈ q, r ∈ rels := by
      intro q
      induction q with
      | nil => intro x _ r hr; cases hr
      | cons s q ih =>
        intro x hx r hr
        rcases List.mem_cons.mp hr with rfl | hr
        · exact hx.1
        · exact ih _ hx.2.2 r hr
    intro r hr
    exact this c _ hc.chain.1 r (List.mem_reverse.mp hr)
  · intro w' hw'
    cases hw with
    | none => cases hw'
    | some _ hid => cases hw'; exact hid

/-- C74: with no such chain, or more than one, it is a `RuntimeError`, whatever else is asked for. -/
theorem C74_agg_ambiguous (sub : String → String → Bool) (rels : List Relationship) (hn : rels.Nodup) (bases : BList)
    (parent : String) (p : BPrim) (prev : Option (Except PyErr Timedelta)) (wh : Option BArg) (fs : List BFeat) (f : BFeat)
    (hg : GivenBases bases fs) (hu : Usable fs f) (h : ¬∃ c, OnlyChain rels f.ent.id parent c) :
    handAgg sub rels bases parent p none prev wh = .error .runtimeError := by
  cases fs with
  | nil => cases hu.first
  | cons g fs =>
    obtain rfl : g = f := by simpa using hu.first
    simp only [handAgg, checkBases_ok.mpr ⟨hg, hu⟩]
    cases hp : handlePath rels parent g.ent.id none with
    | ok pu =>
      obtain ⟨c, hc, _⟩ := (handlePath_none hn).mp hp
      exact absurd ⟨c, hc⟩ h
    | error e => rw [handlePath_none_error hp]

/-- C74: what is neither a feature nor a variable is refused wherever a feature is expected, with an `Exception` of no particular
class: as the base of a direct feature, as an input of aggregations and transformations, and as the condition. -/
theorem C74_not_a_feature (sub : String → String → Bool) (rels : List Relationship) (child parent : String) (rel : Option Relationship)
    (a : BArg) (ha : ¬∃ f, StandsFor a f) (l : List BArg) (hl : a ∈ l) (p : BPrim) (path : Option RelPath)
    (prev : Option (Except PyErr Timedelta)) (wh : Option BArg) :
    handDirect rels a child rel = .error .other ∧
    handTrans sub (.one a) p = .error .other ∧ handTrans sub (.many l) p = .error .other ∧
    handAgg sub rels (.one a) parent p path prev wh = .error .other ∧
    handAgg sub rels (.many l) parent p path prev wh = .error .other ∧
    ∀ bases out, handAgg sub rels bases parent p path prev (some a) ≠ .ok out := by
  have hc : checkFeature a = .error .other := by
    cases a with
    | feature f => exact absurd ⟨f, .feature f⟩ ha
    | var f => exact absurd ⟨f, .var f⟩ ha
    | other => rfl
  have hcl : checkFeatures l = .error .other := by
    induction l with
    | nil => cases hl
    | cons b l ih =>
      simp only [checkFeatures]
      cases hb : checkFeature b with
      | error e =>
        cases b with
        | feature f => cases hb
        | var f => cases hb
        | other => cases hb; rfl
      | ok f =>
        rcases List.mem_cons.mp hl with rfl | hl
        · rw [hc] at hb; cases hb
        · simp only [ih hl]
  refine ⟨by simp only [handDirect, hc], ?_, ?_, ?_, ?_, ?_⟩
  · simp only [handTrans, checkBases, checkFeatures, hc]
  · simp only [handTrans, checkBases, hcl]
  · simp only [handAgg, checkBases, checkFeatures, hc]
  · simp only [handAgg, checkBases, hcl]
  · intro bases out h
    simp only [handAgg] at h
    split at h
    · cases h
    · cases h
    · split at h
      · cases h
      · simp only [checkWhere, hc] at h
        cases h

/-- Something that is neither, among the inputs. -/
example : ¬∃ f, StandsFor .other f := by rintro ⟨f, h⟩; cases h

/-- C74: base features with several outputs are a `ValueError`, in aggregations and in transformations; base features seen
differently, or none, an `AssertionError`. -/
theorem C74_bases_rejected (sub : String → String → Bool) (rels : List Relationship) (l : List BArg) (parent : String) (p : BPrim)
    (path : Option RelPath) (prev : Option (Except PyErr Timedelta)) (wh : Option BArg) (fs : List BFeat) (hg : StandForAll l fs) :
    ((fs = [] ∨ ∃ f g, fs.head? = some f ∧ g ∈ fs ∧ ¬SeenAlike f.ent g.ent) →
      handAgg sub rels (.many l) parent p path prev wh = .error .assertionError ∧
        handTrans sub (.many l) p = .error .assertionError) ∧
    ((∃ f, fs.head? = some f ∧ (∀ g ∈ fs, SeenAlike f.ent g.ent) ∧ ∃ g ∈ fs, 1 < g.outputs) →
      handAgg sub rels (.many l) parent p path prev wh = .error .valueError ∧ handTrans sub (.many l) p = .error .valueError) := by
  have hl := checkFeatures_ok.mpr hg
  constructor
  · intro h
    have hb : checkBases (.many l) = .error .assertionError := by
      unfold checkBases
      dsimp only
      rw [hl]
      dsimp only
      cases fs with
      | nil => rfl
      | cons f fs =>
        rcases h with h | ⟨f', g, hf, hgm, hne⟩
        · cases h
        cases hf
        have : ¬(fs.all fun k => sameEnt f.ent k.ent) = true := by
          intro ha
          rcases List.mem_cons.mp hgm with rfl | hgm
          · exact hne Spec.SeenAlike.rfl'
          · exact hne (sameEnt_iff.mp (List.all_eq_true.mp ha g hgm))
        simp only [if_neg this]
    simp only [handAgg, handTrans, hb, and_self]
  · rintro ⟨f, hf, hs, g, hgm, ho⟩
    have hb : checkBases (.many l) = .error .valueError := by
      unfold checkBases
      dsimp only
      rw [hl]
      dsimp only
      cases fs with
      | nil => cases hf
      | cons f' fs =>
        cases hf
        have : (fs.all fun k => sameEnt f.ent k.ent) = true :=
          List.all_eq_true.mpr fun k hk => sameEnt_iff.mpr (hs k (List.mem_cons_of_mem _ hk))
        simp only [if_pos this]
        rw [if_pos (List.any_eq_true.mpr ⟨g, hgm, by simpa using ho⟩)]
    simp only [handAgg, handTrans, hb, and_self]

/-- C74: what is checked of a path that is given: the direction, the two ends, and that some chain of relationships exists. That it
is a chain of relationships of the entity set is not (`C74_given_path_violated`). -/
theorem C74_agg_given_partial (sub : String → String → Bool) (rels : List Relationship) (hn : rels.Nodup) (bases : BList)
    (parent : String) (p : BPrim) (path : RelPath) (hne : path ≠ []) (prev : Option (Except PyErr Timedelta)) (wh : Option BArg)
    (out : NewFeat) :
    handAgg sub rels bases parent p (some path) prev wh = .ok out ↔
      ∃ fs f u w td, GivenBases bases fs ∧ Usable fs f ∧ EndsFit path parent f.ent.id ∧
        (∃ c, SimpleChain rels f.ent.id parent c) ∧
        (u = true ↔ ∃ c, SimpleChain rels f.ent.id parent c ∧ ∀ q, SimpleChain rels f.ent.id parent q → q = c) ∧
        WhereGiven f.ent.id wh w ∧ WindowGiven sub f.ent prev td ∧ TypesFit sub p fs ∧ out = ⟨.agg path u td, parent, fs, w⟩ := by
  rw [handAgg_ok]
  constructor
  · rintro ⟨fs, f, pu, w, td, hg, hu, hp, hw, ht, hi, rfl⟩
    obtain ⟨he, u, huq, rfl⟩ := (handlePath_some hne).mp hp
    refine ⟨fs, f, u, w, td, hg, hu, he, ?_, ?_, hw, ht, hi, rfl⟩
    · apply Classical.byContradiction
      intro hno
      rw [(C02_unique_path_raises rels _ _).mpr hno] at huq
      cases huq
    · rw [← C02_unique_path_true rels hn, huq]
      simp
  · rintro ⟨fs, f, u, w, td, hg, hu, he, hc, huq, hw, ht, hi, rfl⟩
    refine ⟨fs, f, (path, u), w, td, hg, hu, (handlePath_some hne).mpr ⟨he, u, ?_, rfl⟩, hw, ht, hi, rfl⟩
    cases hh : hasUniqueForwardPath rels f.ent.id parent with
    | error e => cases e; exact absurd hc ((C02_unique_path_raises rels _ _).mp hh)
    | ok v =>
      rw [← C02_unique_path_true rels hn, hh] at huq
      simp only [Except.ok.injEq] at huq
      cases u <;> cases v <;> simp_all

/-- C74: a transform feature can be built exactly if the base features can be used together and the types fit. -/
theorem C74_trans (sub : String → String → Bool) (bases : BList) (p : BPrim) (out : NewFeat) :
    handTrans sub bases p = .ok out ↔
      ∃ fs f, GivenBases bases fs ∧ Usable fs f ∧ TypesFit sub p fs ∧ out = ⟨.trans, f.ent.id, fs, none⟩ :=
  handTrans_ok

/-- C74: a group-by feature can be built exactly if moreover the type of the group is discrete, and the group can be used together
with the base features; it is the last of them. -/
theorem C74_groupby (sub : String → String → Bool) (bases : BList) (p : BPrim) (groupby : BArg) (out : NewFeat) :
    (handGroupby sub bases p groupby).1 = .ok out ↔
      ∃ fs f g, GivenBases bases fs ∧ StandsFor groupby g ∧ sub g.vtype "Discrete" = true ∧ Usable (fs ++ [g]) f ∧
        TypesFit sub p (fs ++ [g]) ∧ out = ⟨.groupby g, f.ent.id, fs ++ [g], none⟩ := by
  have happ : ∀ (l : List BArg) (g : BFeat) (fs : List BFeat), StandForAll (l ++ [.feature g]) fs ↔
      ∃ gs, StandForAll l gs ∧ fs = gs ++ [g] := by
    intro l g
    induction l with
    | nil =>
      intro fs
      constructor
      · intro h
        cases h with
        | cons h1 h2 => cases h1; cases h2; exact ⟨[], .nil, rfl⟩
      · rintro ⟨gs, h, rfl⟩
        cases h
        exact .cons (.feature g) .nil
    | cons a l ih =>
      intro fs
      constructor
      · intro h
        cases h with
        | cons h1 h2 =>
          obtain ⟨gs, h3, rfl⟩ := (ih _).mp h2
          exact ⟨_ :: gs, .cons h1 h3, rfl⟩
      · rintro ⟨gs, h, rfl⟩
        cases h with
        | cons h1 h2 => exact .cons h1 ((ih _).mpr ⟨_, h2, rfl⟩)
  have hiff : ∀ g fs, GivenBases (appendGroup bases g) fs ↔ ∃ gs, GivenBases bases gs ∧ fs = gs ++ [g] := by
    intro g fs
    cases bases with
    | many l => exact happ l g fs
    | one a => exact happ [a] g fs
  have hgrp : ∀ g, checkGroup groupby = .ok g ↔ StandsFor groupby g := by
    intro g
    cases groupby with
    | feature f =>
      constructor
      · intro h; cases h; exact .feature _
      · intro h; cases h; rfl
    | var f =>
      constructor
      · intro h; cases h; exact .var _
      · intro h; cases h; rfl
    | other =>
      constructor
      · intro h; cases h
      · intro h; cases h
  constructor
  · intro h
    simp only [handGroupby] at h
    cases hg : checkGroup groupby with
    | error e => rw [hg] at h; cases h
    | ok g =>
      rw [hg] at h
      dsimp only at h
      by_cases hd : sub g.vtype "Discrete" = true
      · rw [if_pos hd] at h
        dsimp only at h
        cases ht : handTrans sub (appendGroup bases g) p with
        | error e => rw [ht] at h; cases h
        | ok f =>
          rw [ht] at h
          cases h
          obtain ⟨fs, f', h1, h2, h3, rfl⟩ := handTrans_ok.mp ht
          obtain ⟨gs, h5, rfl⟩ := (hiff g _).mp h1
          exact ⟨gs, f', g, h5, (hgrp g).mp hg, hd, h2, h3, rfl⟩
      · rw [if_neg hd] at h; cases h
  · rintro ⟨fs, f, g, h1, hg, hd, h2, h3, rfl⟩
    simp only [handGroupby, (hgrp g).mpr hg, if_pos hd]
    rw [handTrans_ok.mpr ⟨fs ++ [g], f, (hiff g _).mpr ⟨fs, h1, rfl⟩, h2, h3, rfl⟩]
    rfl

/-- C74: for a column number that is not negative, `feature[k]` is the column `k` exactly if the feature has more than one column and
`k` is one of them; its name is then the name of that column. -/
theorem C74_slice_partial (f : BFeat) (names : List String) (hnames : names.length = f.outputs) (k : Nat) (out : NewFeat) :
    handSlice f k = .ok out ↔
      1 < f.outputs ∧ out = ⟨.slice k, f.ent.id, [f], none⟩ ∧ ∃ n, names[k]? = some n ∧ sliceName names k = .ok n := by
  have hname : k < names.length → ∃ n, names[k]? = some n ∧ sliceName names k = .ok n := by
    intro hk
    refine ⟨names[k], List.getElem?_eq_getElem hk, ?_⟩
    have : ¬((k : Int) < 0) := by omega
    simp only [sliceName, pyIndex, if_neg this, Int.toNat_natCast, List.getElem?_eq_getElem hk]
  simp only [handSlice]
  by_cases h1 : f.outputs > 1
  · by_cases h2 : (f.outputs : Int) > k
    · rw [if_pos h1, if_pos h2]
      constructor
      · intro h; cases h; exact ⟨h1, rfl, hname (by omega)⟩
      · rintro ⟨_, rfl, _⟩; rfl
    · rw [if_pos h1, if_neg h2]
      constructor
      · intro h; cases h
      · rintro ⟨_, _, n, hn, _⟩
        have : k < names.length := (List.getElem?_eq_some_iff.mp hn).1
        omega
  · rw [if_neg h1]
    constructor
    · intro h; cases h
    · rintro ⟨h, _⟩; exact absurd h h1

/-- C74: what `Feature` builds is decided by the arguments: with no primitive the identity feature of a variable or, for an entity, a
direct feature of it; with a primitive an aggregation for the parent entity, else a group-by or transform feature of the entity of the
first base feature. -/
theorem C74_feature (sub : String → String → Bool) (rels : List Relationship) (hn : rels.Nodup) (a : FeatureArgs) (out : NewFeat)
    (h : newFeature sub rels a = .ok out) :
    (a.primitive = none → a.entity = none → ∃ f, a.base = .one (.var f) ∧ out = ⟨.identity, f.ent.id, [], none⟩) ∧
    (a.primitive = none → ∀ e, a.entity = some e → ∃ b f r, a.base = .one b ∧ StandsFor b f ∧
      (r ∈ rels ∧ r.childE = e ∧ r.parentE = f.ent.id) ∧ (∀ s ∈ rels, s.childE = e → s.parentE = f.ent.id → s = r) ∧
      out = ⟨.direct r, e, [f], none⟩) ∧
    (∀ p, a.primitive = some p → ∀ e, a.parent = some e → p.aggregation = true ∧
      ∃ fs f c w td, GivenBases a.base fs ∧ Usable fs f ∧ OnlyChain rels f.ent.id e c ∧ WhereGiven f.ent.id a.wh w ∧
        WindowGiven sub f.ent a.prev td ∧ TypesFit sub p fs ∧ out = ⟨.agg (c.reverse.map fun r => (false, r)) true td, e, fs, w⟩) ∧
    (∀ p, a.primitive = some p → a.parent = none → p.transform = true ∧
      (a.groupby = none →
        ∃ fs f, GivenBases a.base fs ∧ Usable fs f ∧ TypesFit sub p fs ∧ out = ⟨.trans, f.ent.id, fs, none⟩) ∧
      (∀ b, a.groupby = some b →
        ∃ fs f g, GivenBases a.base fs ∧ StandsFor b g ∧ sub g.vtype "Discrete" = true ∧ Usable (fs ++ [g]) f ∧
          TypesFit sub p (fs ++ [g]) ∧ out = ⟨.groupby g, f.ent.id, fs ++ [g], none⟩)) := by
  simp only [newFeature] at h
  cases hp : a.primitive with
  | none =>
    rw [hp] at h
    cases he : a.entity with
    | none =>
      rw [he] at h
      dsimp only at h
      refine ⟨fun _ _ => ?_, (by rintro _ _ ⟨⟩), (by rintro _ ⟨⟩), (by rintro _ ⟨⟩)⟩
      cases hb : a.base with
      | many l => rw [hb] at h; cases h
      | one b =>
        rw [hb] at h
        cases b with
        | var f => cases h; exact ⟨f, rfl, rfl⟩
        | feature f => cases h
        | other => cases h
    | some e =>
      rw [he] at h
      dsimp only at h
      refine ⟨(by rintro _ ⟨⟩), ?_, (by rintro _ ⟨⟩), (by rintro _ ⟨⟩)⟩
      rintro _ _ ⟨⟩
      cases hb : a.base with
      | many l => rw [hb] at h; cases h
      | one b =>
        rw [hb] at h
        obtain ⟨f, r, h1, h2, h3, h4⟩ := (C74_direct rels hn b e out).mp h
        exact ⟨b, f, r, rfl, h1, h2, h3, h4⟩
  | some p =>
    rw [hp] at h
    dsimp only at h
    refine ⟨(by rintro ⟨⟩), (by rintro ⟨⟩), ?_, ?_⟩
    · rintro _ ⟨⟩ e he
      rw [he] at h
      dsimp only at h
      split at h
      · next hagg => exact ⟨hagg, (C74_agg sub rels hn _ _ _ _ _ _).mp h⟩
      · cases h
    · rintro _ ⟨⟩ hpar
      rw [hpar] at h
      dsimp only at h
      split at h
      · next htr =>
        cases hgb : a.groupby with
        | none =>
          rw [hgb] at h
          exact ⟨htr, fun _ => handTrans_ok.mp h, (by rintro _ ⟨⟩)⟩
        | some b =>
          rw [hgb] at h
          exact ⟨htr, (by rintro ⟨⟩), (by rintro _ ⟨⟩; exact (C74_groupby sub a.base p b out).mp h)⟩
      · cases h

/-! ## Examples and findings -/

namespace BuildExample
def rCS : Relationship := ⟨"customers", "id", "sessions", "customer_id"⟩
def rST : Relationship := ⟨"sessions", "id", "transactions", "session_id"⟩
def rPT : Relationship := ⟨"products", "id", "transactions", "product_id"⟩
def rels : List Relationship := [rCS, rST, rPT]
/-- `issubclass`, on the few types of the examples. -/
def sub (a b : String) : Bool := a == b || (a == "Id" && b == "Discrete") || (a == "NumericTimeIndex" && b == "Numeric")
def tx : BuildEnt := ⟨"transactions", 1, "id", some "time", [], [("id", "Index"), ("time", "DatetimeTimeIndex"), ("amount", "Numeric"),
  ("product_id", "Id")]⟩
/-- The same entity, its id being another string object: read back from a file. -/
def tx' : BuildEnt := { tx with obj := 2 }
def ticks : BuildEnt := ⟨"transactions", 1, "id", some "t", [], [("id", "Index"), ("t", "NumericTimeIndex"), ("amount", "Numeric")]⟩
def amount : BFeat := ⟨tx, "amount", "Numeric", 1⟩
def amount' : BFeat := ⟨tx', "amount", "Numeric", 1⟩
def product : BFeat := ⟨tx, "product_id", "Id", 1⟩
def modes : BFeat := ⟨tx, "N_MOST_COMMON", "Discrete", 3⟩
def tick : BFeat := ⟨ticks, "amount", "Numeric", 1⟩
def sum : BPrim := ⟨some [["Numeric"]], 1, true, false⟩
def cumSum : BPrim := ⟨some [["Numeric"], ["Numeric", "Discrete"]], 1, false, true⟩
def addP : BPrim := ⟨some [["Numeric", "Numeric"]], 1, false, true⟩

theorem only : OnlyChain rels "transactions" "customers" [rST, rCS] := by
  refine ⟨⟨⟨by decide, rfl, by decide, rfl, rfl⟩, by decide⟩, ?_, by decide⟩
  intro q hq
  have step : ∀ r ∈ rels, (r.childE = "transactions" → r = rST ∨ r = rPT) ∧ (r.childE = "sessions" → r = rCS) ∧
      r.childE ≠ "customers" ∧ r.childE ≠ "products" := by decide
  cases q with
  | nil => exact absurd (show "transactions" = "customers" from hq.1) (by decide)
  | cons r q =>
    obtain ⟨h1, h2, h3⟩ := hq.1
    rcases (step r h1).1 h2 with rfl | rfl
    · cases q with
      | nil => exact absurd (show "sessions" = "customers" from h3) (by decide)
      | cons s q =>
        obtain ⟨h4, h5, h6⟩ := h3
        have := (step s h4).2.1 h5
        subst this
        cases q with
        | nil => rfl
        | cons t q =>
          obtain ⟨h7, h8, _⟩ := h6
          exact absurd h8 (step t h7).2.2.1
    · cases q with
      | nil => exact absurd (show "products" = "customers" from h3) (by decide)
      | cons s q =>
        obtain ⟨h4, h5, _⟩ := h3
        exact absurd h5 (step s h4).2.2.2

theorem amountUsable : Usable [amount] amount :=
  ⟨rfl, by decide, by simp [Spec.SeenAlike.rfl']⟩

example : rels.Nodup := by decide
example : handDirect rels (.feature ⟨⟨"sessions", 3, "id", none, [], []⟩, "device", "Discrete", 1⟩) "transactions" none =
    .ok ⟨.direct rST, "transactions", [⟨⟨"sessions", 3, "id", none, [], []⟩, "device", "Discrete", 1⟩], none⟩ := rfl
example : handDirect [rPT, ⟨"products", "id", "transactions", "gift_id"⟩]
    (.feature ⟨⟨"products", 3, "id", none, [], []⟩, "brand", "Discrete", 1⟩) "transactions" none = .error .runtimeError := rfl
/-- Two steps up, with a window. -/
example (td : Timedelta) : ∃ out, handAgg sub rels (.one (.var amount)) "customers" sum none (some (.ok td)) (some (.feature product)) = .ok out ∧
    out.kind = .agg [(false, rCS), (false, rST)] true (some td) :=
  ⟨_, (C74_agg sub rels (by decide) _ _ _ _ _ _).mpr
    ⟨[amount], amount, [rST, rCS], some product, some td, .cons (.var _) .nil, amountUsable, only, .some (.feature _) rfl,
      .some (ti := "time") (ty := "DatetimeTimeIndex") rfl rfl (Or.inr rfl),
      fun alts h => ⟨["Numeric"], by cases h; simp, by
        intro i ty f h1 h2
        cases i with
        | zero => cases h1; cases h2; rfl
        | succ i => cases h1⟩, rfl⟩, rfl⟩
example : handTrans sub (.many [.var amount, .var amount]) addP = .ok ⟨.trans, "transactions", [amount, amount], none⟩ := rfl
end BuildExample

open BuildExample

/-- C74: a path that is given need not be connected, nor made of relationships of the entity set: only its ends are looked at. -/
theorem C74_given_path_violated :
    (∃ out, handAgg sub rels (.one (.var amount)) "customers" sum (some [(false, rCS), (false, rPT)]) none none = .ok out ∧
      out.kind = .agg [(false, rCS), (false, rPT)] true none) ∧ ¬PathDown "customers" [rCS, rPT] "transactions" := by
  constructor
  · refine ⟨_, (C74_agg_given_partial sub rels (by decide) _ _ _ _ (by simp) _ _ _).mpr
      ⟨[amount], amount, true, none, none, .cons (.var _) .nil, amountUsable, ⟨by decide, ⟨_, rfl, rfl⟩, ⟨_, rfl, rfl⟩⟩, ⟨_, only.chain⟩,
        ⟨fun _ => ⟨_, only.chain, only.only⟩, fun _ => rfl⟩, .none, .none, ?_, rfl⟩, rfl⟩
    intro alts h
    refine ⟨["Numeric"], by cases h; simp, ?_⟩
    intro i ty f h1 h2
    cases i with
    | zero => cases h1; cases h2; rfl
    | succ i => cases h1
  · intro h
    exact absurd (pathDown_linked h) (by decide)

/-- C74: a window on an entity whose time index is a number can never be asked for: whatever the window, the constructor reads an
attribute that windows do not have. -/
theorem C74_window_violated (td : Timedelta) :
    handAgg sub [rST] (.one (.var tick)) "sessions" sum (some [(false, rST)]) (some (.ok td)) none = .error .attributeError := by
  have hchain : SimpleChain [rST] "transactions" "sessions" [rST] := ⟨⟨by simp, rfl, rfl⟩, by decide⟩
  have hp : ∃ pu, handlePath [rST] "sessions" "transactions" (some [(false, rST)]) = .ok pu := by
    cases hu : hasUniqueForwardPath [rST] "transactions" "sessions" with
    | error e => cases e; exact absurd ⟨_, hchain⟩ ((C02_unique_path_raises _ _ _).mp hu)
    | ok u => exact ⟨_, (handlePath_some (by simp)).mpr ⟨⟨by decide, ⟨_, rfl, rfl⟩, ⟨_, rfl, rfl⟩⟩, u, hu, rfl⟩⟩
  obtain ⟨pu, hp⟩ := hp
  have hb : checkBases (.one (.var tick)) = .ok [tick] := rfl
  simp only [handAgg, hb, show tick.ent.id = "transactions" from rfl, hp]
  rfl

/-- C74: inputs are compared with the signature only as far as the shorter list goes: an addition of one feature is accepted, and one
of three. -/
theorem C74_inputs_violated :
    handTrans sub (.many [.var amount]) addP = .ok ⟨.trans, "transactions", [amount], none⟩ ∧
    handTrans sub (.many [.var amount, .var amount, .var product]) addP =
      .ok ⟨.trans, "transactions", [amount, amount, product], none⟩ := ⟨rfl, rfl⟩

/-- C74: a group-by feature changes the list it is given: the same call on the same list builds something else the second time. -/
theorem C74_groupby_list_violated :
    ∃ l, handGroupby sub (.many [.var amount]) cumSum (.var product) = (.ok ⟨.groupby product, "transactions", [amount, product], none⟩, l) ∧
      (handGroupby sub l cumSum (.var product)).1 = .ok ⟨.groupby product, "transactions", [amount, product, product], none⟩ :=
  ⟨_, rfl, rfl⟩

/-- C74: negative columns are accepted, also ones that do not exist, and fail only when a name is asked for. -/
theorem C74_slice_violated : ∃ out, handSlice modes (-4) = .ok out ∧ sliceName ["m[0]", "m[1]", "m[2]"] (-4) = .error .indexError ∧
    sliceName ["m[0]", "m[1]", "m[2]"] (-1) = .ok "m[2]" := ⟨_, rfl, rfl, rfl⟩

/-- C74: two features of one entity cannot be used together if one of them was read from a file: the entities are compared by the
address of their ids. -/
theorem C74_loaded_violated : tx.id = tx'.id ∧ tx.vars = tx'.vars ∧ tx.index = tx'.index ∧ tx.timeIndex = tx'.timeIndex ∧
    handTrans sub (.many [.var amount, .feature amount']) addP = .error .assertionError := ⟨rfl, rfl, rfl, rfl, rfl⟩

/-- C74: arguments that do not apply are dropped without a word: with no primitive, the parent entity, the condition and the window
do not matter. -/
theorem C74_ignored_violated (rels : List Relationship) (parent : Option String) (prev : Option (Except PyErr Timedelta)) (wh : Option BArg) :
    newFeature sub rels ⟨.one (.var amount), none, none, parent, none, prev, wh⟩ = .ok ⟨.identity, "transactions", [], none⟩ := rfl

end FT
