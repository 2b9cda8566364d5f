import Verif.Lemmas.DfsRead
import Verif.Lemmas.ApproxPlain
import Verif.Props.Cfm
import Verif.Props.Schema
/-!
# C79: a call of `dfs` computes what it builds

The features Deep Feature Synthesis builds can be computed by the calculator, and the matrix `dfs` returns holds their values. The
conditions (`Spec/DfsMatrix.lean`) are about the data, the primitives and the names of columns.
-/
namespace FT
open Spec

theorem seeds_congr {L : Lang} {env : Env} {R : Reading} {seeds seeds' : List DFeat} (h : SeedsComputable L env (seeds.map (readFeat R L env.rels)))
    (hs : ∀ f, f ∈ seeds' → f ∈ seeds) : SeedsComputable L env (seeds'.map (readFeat R L env.rels)) := by
  have hm : ∀ x, x ∈ seeds'.map (readFeat R L env.rels) → x ∈ seeds.map (readFeat R L env.rels) := by
    intro x hx
    obtain ⟨f, hf, rfl⟩ := List.mem_map.mp hx
    exact List.mem_map_of_mem (hs f hf)
  have hn : ∀ g, NeededBy (seeds'.map (readFeat R L env.rels)) g → NeededBy (seeds.map (readFeat R L env.rels)) g :=
    fun g ⟨x, hx, hg⟩ => ⟨x, hm x hx, hg⟩
  exact ⟨fun s h' => h.whole s (hm s h'), fun g hg => h.wellFormed g (hn g hg), fun g q hg => h.direct g q (hn g hg)⟩

/-- C79. Every feature that a call of `dfs` returns, or that is needed for one, satisfies what the calculator expects of a feature:
its inputs and its condition are single columns of the right entity, its relationships lead there, its outputs are as many as its
primitive gives. -/
theorem C79_wellformed_partial (L : Lang) (equalScalar : Val → Prim) (ents : List DEnt) (R : Reading) (a : DfsArgs) (env : Env)
    (hL : ∀ l, (L.setOrder l).Perm l) (hseeds : SeedsComputable L env (a.seeds.map (readFeat R L env.rels))) (hD : DataFor env ents) (hP : PrimsOk L equalScalar R a)
    (r : List DFeat) (hr : dfsFeatures L equalScalar ents env.rels a = .ok r)
    (hS : SlicesLocal (r.map (readFeat R L env.rels))) (hC : ConditionsApart (r.map (readFeat R L env.rels))) :
    (∀ f ∈ r.map (readFeat R L env.rels), f.entity = a.target ∧ WholeFeature f) ∧
    ∀ g, NeededBy (r.map (readFeat R L env.rels)) g → WellFormed env g ∧ ∀ x ∈ g.path, x.2 ∈ env.rels := by
  obtain ⟨S, hc, hb⟩ := dfs_built hL hr
  have hs := seeds_congr hseeds fun f => (hc.seeds f).mp
  refine ⟨?_, fun g hg => ?_⟩
  · intro f hf
    obtain ⟨f', hf', rfl⟩ := List.mem_map.mp hf
    obtain ⟨_, h2, h3⟩ := hb f' hf'
    refine ⟨by rw [read_entity]; exact h2, fun n hn => ?_⟩
    rcases h3 with h3 | h3
    · exact hs.whole _ (List.mem_map_of_mem h3) n hn
    · rw [read_kind] at hn
      cases hk : f'.kind with
      | slice m => exact h3 m hk
      | _ => rw [hk] at hn; simp [readKind] at hn
  · rcases known_needed (fun f hf => (hb f hf).1) hg with hn | ⟨f, hf, rfl⟩
    · exact hs.wellFormed g hn
    exact known_wf hc.lang hc.scalar (by rw [hc.ents]; exact hD) hc.rels hs hP (fun p hp => (hc.aggs p).mp hp) (fun p hp => (hc.trans p).mp hp)
      (fun p hp => (hc.groupbys p).mp hp) hf (fun p hk => hS _ hg p hk) (hC _ hg)

/-- The features a call builds can be computed. -/
theorem dfs_computable {L : Lang} {equalScalar : Val → Prim} {ents : List DEnt} {R : Reading} {a : DfsArgs} {env : Env}
    (hL : ∀ l, (L.setOrder l).Perm l) (hseeds : SeedsComputable L env (a.seeds.map (readFeat R L env.rels))) (hD : DataFor env ents) (hP : PrimsOk L equalScalar R a)
    {r : List DFeat} (hr : dfsFeatures L equalScalar ents env.rels a = .ok r) (hA : NamesApart env (r.map (readFeat R L env.rels)))
    (hS : SlicesLocal (r.map (readFeat R L env.rels))) (hC : ConditionsApart (r.map (readFeat R L env.rels))) :
    Computable env (r.map (readFeat R L env.rels)) a.target := by
  obtain ⟨h1, h2⟩ := C79_wellformed_partial L equalScalar ents R a env hL hseeds hD hP r hr hS hC
  obtain ⟨S, hc, hb⟩ := dfs_built hL hr
  have hs := seeds_congr hseeds fun f => (hc.seeds f).mp
  have direct : ∀ f q, NeededBy (r.map (readFeat R L env.rels)) f → f.kind = .direct q →
      ∃ b, f.bases = [b] ∧ SingleOutput b ∧ f.name = L.namer.direct q b.name := by
    intro f q hf hk
    rcases known_needed (fun f hf => (hb f hf).1) hf with hn | ⟨f', hf', rfl⟩
    · exact hs.direct f q hn hk
    by_cases hfs : f' ∈ S.seeds
    · exact hs.direct _ q ⟨_, List.mem_map_of_mem hfs, .inl rfl⟩ hk
    rw [read_kind] at hk
    rcases hf' with hf' | ⟨g, x, v, hg, hx, rfl⟩
    · cases hf' with
      | direct r' g hr' hg _ _ _ _ _ ho =>
        simp only [mkDirect, DFeat.kind, readKind, Kind.direct.injEq] at hk
        subst hk
        refine ⟨readFeat R L env.rels g, rfl, read_single (Nat.le_antisymm ho ?_), by rw [read_name, read_name, ← hc.lang]; rfl⟩
        exact (built_basics (env := env) (by rw [hc.ents]; exact hD) hc.rels hs (fun p hp => (hP.agg p ((hc.aggs p).mp hp)).1)
          (fun p hp => (hP.trans p (hp.elim (fun h => .inl ((hc.trans p).mp h)) fun h => .inr (.inl ((hc.groupbys p).mp h)))).1) hg).2.1
      | seed _ hf => exact absurd hf hfs
      | identity => simp [identityOf, DFeat.kind, readKind] at hk
      | slice => simp [sliceOf, DFeat.kind, readKind] at hk
      | trans => simp [DFeat.kind, readKind] at hk
      | groupby => simp [DFeat.kind, readKind] at hk
      | agg => simp [DFeat.kind, readKind] at hk
      | aggWhere => simp [DFeat.kind, readKind] at hk
    · simp [clauseOf, DFeat.kind, readKind] at hk
  obtain ⟨d, hd, hdt⟩ := hc.present
  refine ⟨hdt ▸ hD.entity d (hc.ents ▸ hd), hD.window, h1, h2, ?_, ?_, hA⟩
  · intro f q hf hk b hb
    obtain ⟨g, hbs, ho, _⟩ := direct f q hf hk
    rw [hbs] at hb
    simp only [List.mem_singleton] at hb
    subst hb
    exact ho
  · intro f g q hf hg hkf hkg hbs
    obtain ⟨x, hx, _, hxn⟩ := direct f q hf hkf
    obtain ⟨y, hy, _, hyn⟩ := direct g q hg hkg
    rw [hx, hy] at hbs
    simp only [List.cons.injEq, and_true] at hbs
    rw [hxn, hyn, hbs]

/-- The features a call builds are regular at every cutoff. -/
theorem dfs_regular {L : Lang} {equalScalar : Val → Prim} {ents : List DEnt} {R : Reading} {a : DfsArgs} {env : Env}
    (hL : ∀ l, (L.setOrder l).Perm l) (hseeds : SeedsComputable L env (a.seeds.map (readFeat R L env.rels))) (hD : DataFor env ents)
    (hP : PrimsOk L equalScalar R a)
    {r : List DFeat} (hr : dfsFeatures L equalScalar ents env.rels a = .ok r) (hA : NamesApart env (r.map (readFeat R L env.rels)))
    (hS : SlicesLocal (r.map (readFeat R L env.rels))) (hC : ConditionsApart (r.map (readFeat R L env.rels))) (t : Int) :
    RegularAt env (r.map (readFeat R L env.rels)) a.target t :=
  ((dfs_computable hL hseeds hD hP hr hA hS hC).shown t hD.window).regular

/-- C79. A call of `dfs` with a table of cutoff times: when the synthesis succeeds with some features, so does the whole call. The
matrix has a row for every row of the table, in its order, with the value of every feature by its definition over the data visible
at that cutoff, then the passed cells. This holds for every chunk size and every way of executing. -/
theorem C79_table_partial (L : Lang) (equalScalar : Val → Prim) (ents : List DEnt) (R : Reading) (a : DfsArgs) (c : CfmArgs)
    (hL : ∀ l, (L.setOrder l).Perm l) (hseeds : SeedsComputable L c.env (a.seeds.map (readFeat R L c.env.rels))) (hD : DataFor c.env ents) (hP : PrimsOk L equalScalar R a)
    (r : List DFeat) (hr : dfsFeatures L equalScalar ents c.env.rels a = .ok r) (hne : r ≠ [])
    (hA : NamesApart c.env (r.map (readFeat R L c.env.rels)))
    (hS : SlicesLocal (r.map (readFeat R L c.env.rels))) (hC : ConditionsApart (r.map (readFeat R L c.env.rels)))
    (passCols : List String) (cut : List CutRow) (hcut : c.cutoff = .table passCols cut) (happ : c.approximate = none)
    (hsome : ∃ x ∈ cut, x.time ≠ none) (hdist : (cut.map fun x => (x.id, x.time)).Nodup) (hlen : ∀ x ∈ cut, x.pass.length = passCols.length)
    (hpass : passCols.Nodup ∧ ∀ n ∈ passCols, ∀ f ∈ r.map (readFeat R L c.env.rels), n ∉ f.names)
    (hsize : SizeOk c.chunkSize) (hexec : Fair c.exec) :
    dfsMatrix L equalScalar ents R a c = .ok ({
      cols := (r.map (readFeat R L c.env.rels)).flatMap Feat.names ++ passCols,
      rows := cut.map fun x => (x.id, if c.inIndex then x.time else none,
        match x.time with
        | some t => valuesAt c.env (r.map (readFeat R L c.env.rels)) a.target t x.id ++ x.pass
        | none => ((r.map (readFeat R L c.env.rels)).flatMap Feat.names ++ passCols).map fun _ => .null) }, r) := by
  have hreg := dfs_regular hL hseeds hD hP hr hA hS hC
  unfold dfsMatrix
  rw [hr]
  dsimp only
  obtain ⟨f0, fs, hfs⟩ := List.exists_cons_of_ne_nil hne
  have hent : (readFeat R L c.env.rels f0).entity = a.target := (hreg 0).targetEntity _ (by rw [hfs]; simp)
  have := C33_table_partial { c with features := r.map (readFeat R L c.env.rels) } (readFeat R L c.env.rels f0) (fs.map (readFeat R L c.env.rels))
    (by rw [hfs]; rfl) passCols cut hcut happ hsome hdist hlen hpass (fun x _ t _ => by rw [hent]; exact hreg t) hsize hexec
  rw [hent] at this
  rw [this]
  rfl

/-- C79. The same for a single cutoff time and a list of instances. -/
theorem C79_single_partial (L : Lang) (equalScalar : Val → Prim) (ents : List DEnt) (R : Reading) (a : DfsArgs) (c : CfmArgs)
    (hL : ∀ l, (L.setOrder l).Perm l) (hseeds : SeedsComputable L c.env (a.seeds.map (readFeat R L c.env.rels))) (hD : DataFor c.env ents) (hP : PrimsOk L equalScalar R a)
    (r : List DFeat) (hr : dfsFeatures L equalScalar ents c.env.rels a = .ok r) (hne : r ≠ [])
    (hA : NamesApart c.env (r.map (readFeat R L c.env.rels)))
    (hS : SlicesLocal (r.map (readFeat R L c.env.rels))) (hC : ConditionsApart (r.map (readFeat R L c.env.rels)))
    (t : Int) (hcut : c.cutoff = .single t ∨ (c.cutoff = .missing ∧ c.now = t)) (happ : c.approximate = none)
    (ids : List Val) (hids : c.instanceIds = some ids) (hine : ids ≠ []) (hdist : ids.Nodup)
    (hsize : SizeOk c.chunkSize) (hexec : Fair c.exec) :
    dfsMatrix L equalScalar ents R a c = .ok ({
      cols := (r.map (readFeat R L c.env.rels)).flatMap Feat.names,
      rows := ids.map fun i => (i, if c.inIndex then some t else none, valuesAt c.env (r.map (readFeat R L c.env.rels)) a.target t i) }, r) := by
  have hreg := dfs_regular hL hseeds hD hP hr hA hS hC
  unfold dfsMatrix
  rw [hr]
  dsimp only
  obtain ⟨f0, fs, hfs⟩ := List.exists_cons_of_ne_nil hne
  have hent : (readFeat R L c.env.rels f0).entity = a.target := (hreg 0).targetEntity _ (by rw [hfs]; simp)
  have := C33_single_partial { c with features := r.map (readFeat R L c.env.rels) } (readFeat R L c.env.rels f0) (fs.map (readFeat R L c.env.rels))
    (by rw [hfs]; rfl) t hcut happ ids hids hine hdist (by rw [hent]; exact hreg t) hsize hexec
  rw [hent] at this
  rw [this]

/-- C79. Without `instance_ids`, the rows are the instances visible at the cutoff. -/
theorem C79_all_instances_partial (L : Lang) (equalScalar : Val → Prim) (ents : List DEnt) (R : Reading) (a : DfsArgs) (c : CfmArgs)
    (hL : ∀ l, (L.setOrder l).Perm l) (hseeds : SeedsComputable L c.env (a.seeds.map (readFeat R L c.env.rels))) (hD : DataFor c.env ents) (hP : PrimsOk L equalScalar R a)
    (r : List DFeat) (hr : dfsFeatures L equalScalar ents c.env.rels a = .ok r) (hne : r ≠ [])
    (hA : NamesApart c.env (r.map (readFeat R L c.env.rels)))
    (hS : SlicesLocal (r.map (readFeat R L c.env.rels))) (hC : ConditionsApart (r.map (readFeat R L c.env.rels)))
    (t : Int) (hcut : c.cutoff = .single t ∨ (c.cutoff = .missing ∧ c.now = t)) (happ : c.approximate = none)
    (hids : c.instanceIds = none) (hine : (worldAt c.env t).ids a.target ≠ [])
    (hsize : SizeOk c.chunkSize) (hexec : Fair c.exec) :
    dfsMatrix L equalScalar ents R a c = .ok ({
      cols := (r.map (readFeat R L c.env.rels)).flatMap Feat.names,
      rows := ((worldAt c.env t).ids a.target).map fun i => (i, if c.inIndex then some t else none,
        r.flatMap fun f => meaning (worldAt c.env t) (readFeat R L c.env.rels f) i) }, r) := by
  have hreg := dfs_regular hL hseeds hD hP hr hA hS hC
  unfold dfsMatrix
  rw [hr]
  dsimp only
  obtain ⟨f0, fs, hfs⟩ := List.exists_cons_of_ne_nil hne
  have hent : (readFeat R L c.env.rels f0).entity = a.target := (hreg 0).targetEntity _ (by rw [hfs]; simp)
  have := C33_all_instances_partial { c with features := r.map (readFeat R L c.env.rels) } (readFeat R L c.env.rels f0) (fs.map (readFeat R L c.env.rels))
    (by rw [hfs]; rfl) t hcut happ hids (by rw [hent]; exact hine) (by rw [hent]; exact hreg t) hsize hexec
  rw [hent] at this
  rw [this]
  simp only [List.flatMap_map]

/-- C79. What goes wrong in the synthesis goes wrong in the call; a synthesis without features makes the call fail; and a call that
returns gives the features the synthesis builds. -/
theorem C79_features (L : Lang) (equalScalar : Val → Prim) (ents : List DEnt) (R : Reading) (a : DfsArgs) (c : CfmArgs) :
    (∀ e, dfsFeatures L equalScalar ents c.env.rels a = .error e → dfsMatrix L equalScalar ents R a c = .error e) ∧
    (dfsFeatures L equalScalar ents c.env.rels a = .ok [] → dfsMatrix L equalScalar ents R a c = .error (.py .assertionError)) ∧
    (∀ m r, dfsMatrix L equalScalar ents R a c = .ok (m, r) → dfsFeatures L equalScalar ents c.env.rels a = .ok r ∧ r ≠ []) := by
  refine ⟨fun e h => ?_, fun h => ?_, fun m r h => ?_⟩
  · unfold dfsMatrix; rw [h]
  · unfold dfsMatrix; rw [h]; rfl
  · unfold dfsMatrix at h
    split at h
    · cases h
    · next fs hfs =>
      split at h
      · cases h
      · next x hx =>
        cases h
        refine ⟨hfs, ?_⟩
        rintro rfl
        cases hx

theorem chain_base {rels : List Relationship} : ∀ {path : List Relationship} {base e : String}, Chain rels base e path.reverse →
    (path.getLast?.map fun r => r.childE).getD e = base := by
  intro path base e h
  rcases List.eq_nil_or_concat path with rfl | ⟨p, r, rfl⟩
  · exact h.symm
  · simp only [List.concat_eq_append, List.reverse_append, List.reverse_cons, List.reverse_nil, List.nil_append, List.cons_append] at h
    simp [h.2.1]

/-- C79. The features that are calculated are those that are listed: nothing is lost or changed between the two steps. -/
theorem C79_reading (R : Reading) (L : Lang) (rels : List Relationship) (f : DFeat) : ReadByName R L rels (readFeat R L rels) f where
  entity := read_entity f
  name := read_name f
  bases := read_bases f
  wh := read_wh f
  one := fun h => by rw [read_names, readNames, if_pos h]
  several := fun h => by
    rw [read_names]
    refine ⟨readNames_length f, fun i hi => ?_⟩
    rw [readNames, if_neg h]
    simp [hi]
  identity := fun v t h => by
    obtain ⟨k, e, n, b, w⟩ := f
    cases h
    exact ⟨rfl, rfl⟩
  direct := fun r h => by
    obtain ⟨k, e, n, b, w⟩ := f
    cases h
    refine ⟨rfl, fun b' hb => ?_⟩
    cases b with
    | nil => cases hb
    | cons c bs =>
      obtain rfl := Option.some.inj hb
      cases c
      rfl
  agg := fun path p h => by
    obtain ⟨k, e, n, b, w⟩ := f
    cases h
    refine ⟨rfl, readUnique rels e path, rfl, fun base hc hn => ?_⟩
    have hb := chain_base hc
    rw [List.getLast?_map, Option.map_map] at hb
    rw [← C02_unique_path_true rels hn]
    unfold readUnique
    have : ((path.getLast?.map fun x => x.2.childE).getD e) = base := hb
    rw [this]
    show _ ↔ hasUniqueForwardPath rels base e = _
    cases hasUniqueForwardPath rels base e with
    | error x => simp
    | ok b => simp
  trans := fun p h => by
    obtain ⟨k, e, n, b, w⟩ := f
    cases h
    exact ⟨rfl, rfl⟩
  groupby := fun p h => by
    obtain ⟨k, e, n, b, w⟩ := f
    cases h
    exact ⟨rfl, rfl⟩
  slice := fun n h => by
    obtain ⟨k, e, n, b, w⟩ := f
    cases h
    rfl

end FT
