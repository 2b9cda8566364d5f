import Verif.Lemmas.DfsComplete2
import Verif.Lemmas.DfsCall
import Verif.Props.Match
namespace FT
open FT.Spec

section
variable {S : Synth}

/-! ## Features of several outputs -/

theorem expandOne_keeps {d : List DFeat} {f x : DFeat} (hx : x ∈ d) (h1 : f.outputs > 1 → f.uname ≠ x.uname)
    (h2 : ∀ i, (sliceOf S f i).uname ≠ x.uname) : x ∈ expandOne S d f := by
  unfold expandOne
  split
  · next ho =>
    have : ∀ (l : List Nat) (d : List DFeat), x ∈ d → x ∈ l.foldl (fun d i => putFeature d (sliceOf S f i)) d := by
      intro l
      induction l with
      | nil => intro d hd; exact hd
      | cons i l ih =>
        intro d hd
        refine ih _ ?_
        rcases putFeature_keeps (f := sliceOf S f i) hd with h | h
        · exact h
        · exact absurd h.1.symm (h2 i)
    refine this _ _ (List.mem_filter.mpr ⟨hx, ?_⟩)
    simpa using fun h => h1 ho h.symm
  · exact hx

theorem expand_keeps {x : DFeat} : ∀ {fs d : List DFeat}, x ∈ d → (∀ f ∈ fs, f.outputs > 1 → f.uname ≠ x.uname) →
    (∀ f ∈ fs, ∀ i, (sliceOf S f i).uname ≠ x.uname) → x ∈ fs.foldl (expandOne S) d
  | [], _, hx, _, _ => hx
  | f :: fs, d, hx, h1, h2 =>
    expand_keeps (fs := fs) (expandOne_keeps hx (h1 f List.mem_cons_self) (h2 f List.mem_cons_self)) (fun g hg => h1 g (List.mem_cons_of_mem _ hg))
      (fun g hg => h2 g (List.mem_cons_of_mem _ hg))

theorem distinct_eq {fs : List DFeat} (hd : Distinct fs) {f g : DFeat} (hf : f ∈ fs) (hg : g ∈ fs) (h : f.uname = g.uname) : f = g :=
  injNames_of_distinct hd f hf g hg h

/-- A feature of one output is found. -/
theorem featuresByType_mem {target : String} {M : Option Int} {st : DState} (hok : StateOk S target M st) {e : String} {fs : List DFeat} (hfs : Lists st e fs)
    {m : Option Int} {types : Option (List String)} {x : DFeat} (hx : x ∈ fs) (ho : x.outputs ≤ 1) (hs : ∀ g i, S.L.namer.slice g i ≠ x.name)
    (hd : withinDepth m (x.depth (S.seeds.map DFeat.uname)) = true) (ht : ∀ ts, types = some ts → ∃ ty ∈ ts, S.L.sub x.vtype ty = true) :
    x ∈ featuresByType S st e m types := by
  obtain ⟨h1, h2, h3⟩ := hok.feats _ (lookup_mem_pair hfs)
  unfold featuresByType
  have hex : exhausted m = false := by
    cases m with
    | none => rfl
    | some k =>
      simp only [withinDepth, decide_eq_true_eq] at hd
      simp only [exhausted, decide_eq_false_iff_not]
      omega
  rw [if_neg (by simp [hex]), show st.feats.lookup e = some fs from hfs]
  refine List.mem_filter.mpr ⟨expand_keeps hx (fun f hf hof he => ?_) (fun f hf i he => ?_), ?_⟩
  · have := distinct_eq h2 hf hx he
    subst this; omega
  · have e1 : f.entity = x.entity := ((h3 f hf).2.1).trans ((h3 x hx).2.1).symm
    unfold DFeat.uname sliceOf at he
    simp only [DFeat.entity, DFeat.name] at he
    refine hs f i ?_
    change f.entity ++ ": " ++ S.L.namer.slice f i = x.entity ++ ": " ++ x.name at he
    rw [e1] at he
    exact append_cancel he
  · rw [hd, Bool.and_true]
    cases types with
    | none => rfl
    | some ts => exact List.any_eq_true.mpr (ht ts rfl)

theorem foldl_put_has {g : DFeat} {i : Nat} (hn : ∀ j, (sliceOf S g j).uname = (sliceOf S g i).uname → j = i) : ∀ (l : List Nat) (d : List DFeat),
    sliceOf S g i ∈ d ∨ i ∈ l → sliceOf S g i ∈ l.foldl (fun d i => putFeature d (sliceOf S g i)) d
  | [], _, h => h.resolve_right (by simp)
  | j :: l, d, h => by
    refine foldl_put_has hn l _ ?_
    by_cases hj : j = i
    · subst hj
      exact .inl putFeature_self
    · rcases h with h | h
      · rcases putFeature_keeps (f := sliceOf S g j) h with h | h
        · exact .inl h
        · exact absurd (hn j h.1.symm) hj
      · rcases List.mem_cons.mp h with h | h
        · exact absurd h.symm hj
        · exact .inr h

/-- An output of a feature of several is found. -/
theorem featuresByType_slice {target : String} {M : Option Int} {st : DState} (hok : StateOk S target M st) {e : String} {fs : List DFeat} (hfs : Lists st e fs)
    {m : Option Int} {types : Option (List String)} {g : DFeat} (hg : g ∈ fs) (ho : 1 < g.outputs) {i : Nat} (hi : i < g.outputs)
    (hn : ∀ g' j, S.L.namer.slice g' j = S.L.namer.slice g i → g'.name = g.name ∧ j = i) (hf : ∀ g' ∈ fs, g'.name ≠ S.L.namer.slice g i)
    (hd : withinDepth m ((sliceOf S g i).depth (S.seeds.map DFeat.uname)) = true)
    (ht : ∀ ts, types = some ts → ∃ ty ∈ ts, S.L.sub (sliceOf S g i).vtype ty = true) : sliceOf S g i ∈ featuresByType S st e m types := by
  obtain ⟨h1, h2, h3⟩ := hok.feats _ (lookup_mem_pair hfs)
  have hun : ∀ f ∈ fs, ∀ n, f.entity ++ ": " ++ n = (sliceOf S g i).uname → n = S.L.namer.slice g i := by
    intro f hf n he
    have e1 : f.entity = g.entity := ((h3 f hf).2.1).trans ((h3 g hg).2.1).symm
    change f.entity ++ ": " ++ n = g.entity ++ ": " ++ S.L.namer.slice g i at he
    rw [e1] at he
    exact append_cancel he
  unfold featuresByType
  have hex : exhausted m = false := by
    cases m with
    | none => rfl
    | some k =>
      simp only [withinDepth, decide_eq_true_eq] at hd
      simp only [exhausted, decide_eq_false_iff_not]
      omega
  rw [if_neg (by simp [hex]), show st.feats.lookup e = some fs from hfs]
  refine List.mem_filter.mpr ⟨?_, ?_⟩
  · obtain ⟨l1, l2, hl⟩ := List.append_of_mem hg
    rw [show fs.foldl (expandOne S) fs = l2.foldl (expandOne S) (expandOne S (l1.foldl (expandOne S) fs) g) by
      conv => lhs; arg 3; rw [hl]
      rw [List.foldl_append, List.foldl_cons]]
    have hsub : ∀ f ∈ l2, f ∈ fs := fun f hf => by rw [hl]; simp [hf]
    refine expand_keeps ?_ (fun f hf' _ he => hf f (hsub f hf') (hun f (hsub f hf') f.name he)) (fun f hf' j he => ?_)
    · unfold expandOne
      rw [if_pos ho]
      refine foldl_put_has (fun j hj => (hn g j (hun g hg _ hj)).2) _ _ (.inr (by simpa using hi))
    · obtain ⟨e1, _⟩ := hn f j (hun f (hsub f hf') _ he)
      have e2 : f.uname = g.uname := by
        unfold DFeat.uname
        rw [e1, (h3 f (hsub f hf')).2.1, (h3 g hg).2.1]
      rw [hl] at h2
      have := (List.pairwise_append.mp h2).2.1
      exact (List.pairwise_cons.mp this).1 f hf' e2.symm
  · rw [hd, Bool.and_true]
    cases types with
    | none => rfl
    | some ts => exact List.any_eq_true.mpr (ht ts rfl)

/-! ## Matching -/

theorem matchInputs_complete {L : Lang} (hL : ∀ l, (L.setOrder l).Perm l) {types : List String} {fs t : List DFeat} {req comm : Bool} (hn : types ≠ [])
    (hd : Distinct fs) (h : IsInput L.sub types fs req t) : ∃ u ∈ matchInputs L types fs false comm req, u.Perm t ∧ (comm = false → u = t) := by
  cases comm with
  | false => exact ⟨t, ((C43_ordered L types fs req hn hd).2 t).mpr h, .refl _, fun _ => rfl⟩
  | true =>
    obtain ⟨u, hu, hp, _⟩ := (C43_commutative L hL types fs req hn hd).2.2 t h
    exact ⟨u, hu, hp, fun h => by cases h⟩

theorem map_uname_inj {fs : List DFeat} (hd : Distinct fs) : ∀ {t u : List DFeat}, (∀ f ∈ t, f ∈ fs) → (∀ f ∈ u, f ∈ fs) →
    t.map DFeat.uname = u.map DFeat.uname → t = u
  | [], [], _, _, _ => rfl
  | [], _ :: _, _, _, h => by simp at h
  | _ :: _, [], _, _, h => by simp at h
  | a :: t, b :: u, h1, h2, h => by
    simp only [List.map_cons, List.cons.injEq] at h
    rw [distinct_eq hd (h1 a List.mem_cons_self) (h2 b List.mem_cons_self) h.1,
      map_uname_inj hd (fun f hf => h1 f (List.mem_cons_of_mem _ hf)) (fun f hf => h2 f (List.mem_cons_of_mem _ hf)) h.2]

theorem filterMatches_complete {sub : String → String → Bool} {os : List POption} {g c : Bool} {ms : List (List DFeat)} {fs : List DFeat}
    (hd : Distinct fs) (hms : ∀ m ∈ ms, ∀ f ∈ m, f ∈ fs) {u : List DFeat} (hu : u ∈ ms) (hv : validMatch sub os g u = true) :
    u ∈ filterMatches sub os g c ms := by
  have hk : keepMatch sub os g c u = some u := by unfold keepMatch; rw [if_pos hv]
  obtain ⟨w, hw, hke⟩ := dedupOn_key tupleKey (List.mem_filterMap.mpr ⟨u, hu, hk⟩ : u ∈ ms.filterMap (keepMatch sub os g c))
  obtain ⟨m, hm, hkm⟩ := List.mem_filterMap.mp (mem_of_dedupOn _ hw)
  have hp := (keepMatch_sound hkm).2.1
  have : w = u := map_uname_inj hd (fun f hf => hms m hm f (hp.mem_iff.mp hf)) (hms u hu) hke
  subst this
  exact (mem_isort _ _ _).mpr hw

theorem allDirectSamePath_iff {t : List DFeat} : allDirectSamePath t = true ↔ (∀ f ∈ t, ∃ r, f.kind = .direct r) ∧ ∀ f ∈ t, ∀ g ∈ t, f.path = g.path := by
  have hdir : ∀ f : DFeat, f.isDirect = true ↔ ∃ r, f.kind = .direct r := by
    intro f
    unfold DFeat.isDirect
    split
    · next r hr => simp [hr]
    · next h => simp only [Bool.false_eq_true, false_iff, not_exists]; exact h
  unfold allDirectSamePath
  rw [Bool.and_eq_true, List.all_eq_true]
  refine and_congr (forall_congr' fun f => forall_congr' fun _ => hdir f) ?_
  cases t with
  | nil => simp
  | cons a t =>
    simp only [List.all_eq_true, beq_iff_eq]
    constructor
    · intro h f hf g hg
      have k : ∀ f ∈ a :: t, f.path = a.path := fun f hf => by
        rcases List.mem_cons.mp hf with rfl | hf
        · rfl
        · exact h f hf
      rw [k f hf, k g hg]
    · exact fun h g hg => h g (List.mem_cons_of_mem _ hg) a List.mem_cons_self

theorem matchInputs_mem {L : Lang} (hL : ∀ l, (L.setOrder l).Perm l) {types : List String} {fs : List DFeat} {req comm : Bool}
    (hd : Distinct fs) : ∀ m ∈ matchInputs L types fs false comm req, ∀ f ∈ m, f ∈ fs := by
  intro m hm f hf
  exact (matchInputs_sound (S := { L := L, ents := [], rels := [], aggs := [], trans := [], wheres := [], groupbys := [], opts := fun _ => [], ignoreEnts := [], ignoreVars := fun _ => [], allowedPaths := [], seeds := [], whereLimit := 0, equalScalar := fun _ => .plain }) hL hd hm).1 f hf

/-- A fitting list of features that the only option of the primitive permits is matched, up to order for a commutative primitive. -/
theorem matchingInputs_complete (hL : ∀ l, (S.L.setOrder l).Perm l) {target : String} {M : Option Int} {st : DState} (hok : StateOk S target M st) {e : String}
    {m : Option Int} {p : Prim} {req : Bool} {keep : DFeat → Bool} {o : POption} (ho : S.opts p = [o]) {t : List DFeat} (hn : t ≠ [])
    (hf : Fits S.L.sub p.inputs t) (hm : ∀ f ∈ t, f ∈ featuresByType S st e m (some p.inputs) ∧ keep f = true ∧ variableFilter S.L.sub f o false = true)
    (hd : Distinct t) (hr : req = true → (∃ f ∈ t, ∃ r, f.kind = .direct r) ∧ ¬((∀ f ∈ t, ∃ r, f.kind = .direct r) ∧ ∀ f ∈ t, ∀ g ∈ t, f.path = g.path)) :
    ∃ u ∈ matchingInputs S st e m p req keep, u.Perm t ∧ (p.commutative = false → u = t) := by
  have hdf := List.Pairwise.filter keep (featuresByType_spec hok (e := e) (m := m) (types := some p.inputs)).2
  have hne : p.inputs ≠ [] := by
    intro h
    rw [h] at hf
    cases t with
    | nil => exact hn rfl
    | cons => exact hf
  obtain ⟨u, hu, hp, hc⟩ := matchInputs_complete hL (comm := p.commutative) (req := req) hne hdf
    ⟨hf, fun f hf => List.mem_filter.mpr ⟨(hm f hf).1, (hm f hf).2.1⟩, hd, fun h => (hr h).1⟩
  refine ⟨u, ?_, hp, hc⟩
  unfold matchingInputs
  refine filterMatches_complete hdf (fun m' hm' => ?_) ?_ ?_
  · split at hm'
    · exact matchInputs_mem hL hdf m' (List.mem_filter.mp hm').1
    · exact matchInputs_mem hL hdf m' hm'
  · split
    · next hreq =>
      refine List.mem_filter.mpr ⟨hu, ?_⟩
      simp only [Bool.not_eq_true', ← Bool.not_eq_true, allDirectSamePath_iff]
      intro ⟨h1, h2⟩
      exact (hr hreq).2 ⟨fun f hf => h1 f (hp.mem_iff.mpr hf), fun f hf g hg => h2 f (hp.mem_iff.mpr hf) g (hp.mem_iff.mpr hg)⟩
    · exact hu
  · rw [ho]
    exact List.all_eq_true.mpr fun f hf => (hm f (hp.mem_iff.mp hf)).2.2

theorem aggInputs_complete (hL : ∀ l, (S.L.setOrder l).Perm l) {target : String} {M : Option Int} {st : DState} (hok : StateOk S target M st) {e c : String}
    {path : RelPath} {m : Option Int} {p : Prim} {o : POption} (ho : S.opts p = [o]) {t : List DFeat} (hn : t ≠ [])
    (hf : Fits S.L.sub p.inputs t) (hm : ∀ f ∈ t, f ∈ featuresByType S st c m (some p.inputs) ∧ aggKeep e path f = true ∧ variableFilter S.L.sub f o false = true)
    (hd : Distinct t) : ∃ u ∈ aggInputs S st e c path m p, u.Perm t ∧ (p.commutative = false → u = t) := by
  obtain ⟨u, hu, hp, hc⟩ := matchingInputs_complete hL hok (req := false) ho hn hf hm hd (fun h => by cases h)
  refine ⟨u, ?_, hp, hc⟩
  have hdf := List.Pairwise.filter (aggKeep e path) (featuresByType_spec hok (e := c) (m := m) (types := some p.inputs)).2
  refine filterMatches_complete hdf (fun m' hm' f hf => ?_) hu ?_
  · obtain ⟨_, m0, hm0, hpm, _⟩ := mem_filterMatches hm'
    simp only [Bool.false_eq_true, if_false] at hm0
    exact matchInputs_mem hL hdf m0 hm0 f (hpm.mem_iff.mp hf)
  · rw [ho]
    exact List.all_eq_true.mpr fun f hf => (hm f (hp.mem_iff.mp hf)).2.2

theorem transInputs_complete (hL : ∀ l, (S.L.setOrder l).Perm l) {target : String} {M : Option Int} {st : DState} (hok : StateOk S target M st) {e : String}
    {m : Option Int} {p : Prim} {req : Bool} {o : POption} (ho : S.opts p = [o]) {t : List DFeat} (hn : t ≠ [])
    (hf : Fits S.L.sub p.inputs t) (hm : ∀ f ∈ t, f ∈ featuresByType S st e m (some p.inputs) ∧ variableFilter S.L.sub f o false = true)
    (hd : Distinct t) (h1 : ∀ f ∈ t, f.outputs = 1) (hst : transStackOk t = true)
    (hr : req = true → (∃ f ∈ t, ∃ r, f.kind = .direct r) ∧ ¬((∀ f ∈ t, ∃ r, f.kind = .direct r) ∧ ∀ f ∈ t, ∀ g ∈ t, f.path = g.path)) :
    ∃ u ∈ transInputs S st e m p req, u.Perm t ∧ (p.commutative = false → u = t) := by
  obtain ⟨u, hu, hp, hc⟩ := matchingInputs_complete hL hok (keep := fun _ => true) ho hn hf (fun f hf => ⟨(hm f hf).1, rfl, (hm f hf).2⟩) hd hr
  refine ⟨u, List.mem_filter.mpr ⟨hu, ?_⟩, hp, hc⟩
  rw [Bool.and_eq_true]
  refine ⟨List.all_eq_true.mpr fun f hf => by simpa using h1 f (hp.mem_iff.mp hf), ?_⟩
  unfold transStackOk at hst ⊢
  rw [List.all_eq_true] at hst ⊢
  exact fun f hf => hst f (hp.mem_iff.mp hf)

/-! ## Reaching entities -/

/-- Without a limit and without allowed paths, whatever is visited has its neighbours visited. -/
def Closed (S : Synth) (st st' : DState) : Prop :=
  ∀ x ∈ st'.keys, x ∉ st.keys → ∀ r ∈ S.rels, (r.parentE = x → r.childE ∉ S.ignoreEnts → r.childE ∈ st'.keys) ∧
    (r.childE = x → r.parentE ∉ S.ignoreEnts → r.parentE ∈ st'.keys)

theorem Closed.trans {a b c : DState} (h1 : Closed S a b) (hf : Frozen b c) (h2 : Closed S b c) : Closed S a c := by
  intro x hx hn r hr
  by_cases hb : x ∈ b.keys
  · have := h1 x hb hn r hr
    exact ⟨fun h i => hf.keys _ (this.1 h i), fun h i => hf.keys _ (this.2 h i)⟩
  · exact h2 x hx hb r hr

def RunClosed (S : Synth) (run : DState → String → RelPath → Option Int → Except DfsErr DState) : Prop :=
  ∀ st st' e path, e ∉ st.keys → run st e path none = .ok st' → Closed S st st'

theorem visitAll_closed {run : DState → String → RelPath → Option Int → Except DfsErr DState} (hrun : RunOk S run) (hc : RunClosed S run) {path : RelPath} :
    ∀ {l : List (String × RelPath)} {st st' : DState}, visitAll S run path none st l = .ok st' → Closed S st st'
  | [], st, st', h => by
    simp only [visitAll, foldE] at h; cases h
    exact fun x hx hn => absurd hx hn
  | x :: l, st, st', h => by
    simp only [visitAll, foldE] at h
    split at h
    · next s1 hs1 =>
      have c2 := visitAll_closed hrun hc (l := l) h
      split at hs1
      · cases hs1; exact c2
      · next hcnd =>
        simp only [Bool.or_eq_true, not_or] at hcnd
        have hn : x.1 ∉ st.keys := fun h => hcnd.1 (any_keys.mpr h)
        exact (hc st s1 x.1 (path ++ x.2) hn hs1).trans (visitAll_visited hrun (l := l) h).1.frozen c2
    · cases h

theorem allowedVia_open (ha : S.allowedPaths = []) {path : RelPath} {x : String × RelPath} (h : x.1 ∉ S.ignoreEnts) : allowedVia S path x = true := by
  unfold allowedVia
  simp [h, ha]

theorem runDfs_closed (ha : S.allowedPaths = []) : ∀ n, RunClosed S (runDfs S n)
  | 0 => fun _ _ _ _ _ h => by cases h
  | n + 1 => by
    intro st st' e path he h
    obtain ⟨d, s1, s2, s3, s4, s5, s6, s7, hs⟩ := visit_stages (m := none) rfl h
    have hco := hs.course (runDfs_ok n)
    have k1 : ∀ x, x ∈ s1.keys ↔ x = e ∨ x ∈ st.keys := by
      intro x; rw [hco.a1.others.2.2]; simp [DState.keys]
    have k3 : s3.keys = s2.keys := hco.a3.others.2.2
    have k4 : s4.keys = s3.keys := hco.a4.others.2.2
    have k5 : st'.keys = s5.keys := by
      rw [hco.last]; show s7.keys = _; rw [hco.a7.others.2.2, hco.a6.others.2.2]
    have c2 : Closed S s1 s2 := visitAll_closed (runDfs_ok n) (runDfs_closed ha n) hs.backward
    have c5 : Closed S s4 s5 := visitAll_closed (runDfs_ok n) (runDfs_closed ha n) hs.forward
    have f25 : ∀ y, y ∈ s2.keys → y ∈ s5.keys := fun y hy => hco.v5.frozen.keys y (by rw [k4, k3]; exact hy)
    intro x hx hn r hr
    rw [k5] at hx ⊢
    by_cases hxe : x = e
    · subst hxe
      refine ⟨fun hp hi => f25 _ ?_, fun hp hi => ?_⟩
      · exact hco.k2 rfl (r.childE, [(false, r)]) (List.mem_map.mpr ⟨r, mem_getBackward.mpr ⟨hr, hp⟩, rfl⟩) (allowedVia_open ha hi)
      · exact hco.k5 rfl (r.parentE, [(true, r)]) (List.mem_map.mpr ⟨r, mem_getForward.mpr ⟨hr, hp⟩, rfl⟩) (allowedVia_open ha hi)
    · by_cases h2 : x ∈ s2.keys
      · have := c2 x h2 (fun h => by rcases (k1 x).mp h with h | h; exact hxe h; exact hn h) r hr
        exact ⟨fun h i => f25 _ (this.1 h i), fun h i => f25 _ (this.2 h i)⟩
      · exact c5 x hx (by rw [k4, k3]; exact h2) r hr

/-- Going down from the target, every entity is visited before the target aggregates. -/
theorem reached_below {s1 s2 : DState} {e : String} (hk1 : ∀ x, x ∈ s1.keys ↔ x = e) (hc : Closed S s1 s2)
    (hkids : ∀ r ∈ S.rels, r.parentE = e → r.childE ∉ S.ignoreEnts → r.childE ∈ s2.keys)
    (hcyc : ∀ p x, Chain S.rels x e p → p ≠ [] → x ≠ e) :
    ∀ (p : List Relationship) (x : String), p ≠ [] → Chain S.rels x e p → (∀ r ∈ p, r.childE ∉ S.ignoreEnts) → x ∈ s2.keys := by
  intro p
  induction p with
  | nil => intro x h; exact absurd rfl h
  | cons r p ih =>
    intro x _ hch hi
    obtain ⟨hr, rfl, hch'⟩ := hch
    by_cases hp : p = []
    · subst hp
      exact hkids r hr hch' (hi r List.mem_cons_self)
    · have hin := ih r.parentE hp hch' (fun r' hr' => hi r' (List.mem_cons_of_mem _ hr'))
      have hne : r.parentE ≠ e := hcyc p r.parentE hch' hp
      exact (hc r.parentE hin (fun h => hne ((hk1 _).mp h)) r hr).1 rfl (hi r List.mem_cons_self)

/-! ## The visit of the target -/

/-- The states of the visit satisfy the invariant. -/
theorem stages_ok (hL : ∀ l, (S.L.setOrder l).Perm l) {target : String} {M : Option Int} {n : Nat} {st st' : DState} {e : String} {path : RelPath}
    {m : Option Int} {d : DEnt} {s1 s2 s3 s4 s5 s6 s7 : DState} (hs : Stages S (runDfs S n) st e path m st' d s1 s2 s3 s4 s5 s6 s7)
    (hx : exhausted m = false) (h : StateOk S target M st) (he : e ∉ st.feats.map Prod.fst) (ho : Open S target e) (hm : Level S target M e m) :
    StateOk S target M s2 ∧ StateOk S target M s3 ∧ StateOk S target M s5 ∧ StateOk S target M s6 := by
  obtain ⟨hd1, hd2⟩ := find_ent hs.found
  have h0 : StateOk S target M { st with feats := (e, []) :: st.feats } := by
    refine ⟨by simpa using ⟨by simpa using he, h.keys⟩, fun q hq => ?_, h.clauses⟩
    rcases List.mem_cons.mp hq with rfl | hq
    · exact ⟨ho, .nil, by simp⟩
    · exact h.feats q hq
  have h1 := (addIdentity_step h0 hd1 (hd2 ▸ ho) (hd2 ▸ hm.reached (by simp [hx])) hs.identity)
  have h2 := visitAll_step (runDfs_step hL n) h1.ok (level_backward hm) hs.backward
  have h3 := aggAll_step hL h2.ok hm ho hs.aggs
  have h4 := buildTransform_step hL h3.ok hm hs.trans
  have h5 := visitAll_step (runDfs_step hL n) h4.ok (level_forward hm) hs.forward
  have h6 := directAll_step h5.ok ho hm hs.direct
  exact ⟨h2.ok, h3.ok, h5.ok, h6.ok⟩

end
end FT
