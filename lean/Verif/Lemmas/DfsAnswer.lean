import Verif.Lemmas.DfsTerm
import Verif.Lemmas.DfsCall
/-!
# When the synthesis raises nothing
-/
namespace FT
open FT.Spec

/-- A computation that gives a result. -/
def Answers {ε α : Type} (x : Except ε α) : Prop := ∃ y, x = .ok y

theorem gatherE_answers {α β ε : Type} {f : α → Except ε (List β)} : ∀ {l : List α}, (∀ a ∈ l, Answers (f a)) → Answers (gatherE f l)
  | [], _ => ⟨_, rfl⟩
  | a :: l, hf => by
    obtain ⟨x, hx⟩ := hf a List.mem_cons_self
    obtain ⟨y, hy⟩ := gatherE_answers fun b hb => hf b (List.mem_cons_of_mem _ hb)
    exact ⟨_, by simp only [gatherE, hx, hy]; rfl⟩

theorem eachE_answers {α : Type} {f : α → Except DfsErr DFeat} {l : List α} (hf : ∀ a ∈ l, Answers (f a)) : Answers (eachE f l) := by
  refine gatherE_answers fun a ha => ?_
  obtain ⟨x, hx⟩ := hf a ha
  exact ⟨[x], by simp only [hx]⟩

theorem foldE_answers {σ α ε : Type} {f : σ → α → Except ε σ} (P : σ → Prop) :
    ∀ {l : List α} {s : σ}, P s → (∀ a ∈ l, ∀ s, P s → ∃ s', f s a = .ok s' ∧ P s') → ∃ s', foldE f s l = .ok s' ∧ P s'
  | [], s, hs, _ => ⟨s, rfl, hs⟩
  | a :: l, s, hs, hp => by
    obtain ⟨s1, h1, h2⟩ := hp a List.mem_cons_self s hs
    obtain ⟨s2, h3, h4⟩ := foldE_answers P h2 fun b hb => hp b (List.mem_cons_of_mem _ hb)
    exact ⟨s2, by simp only [foldE, h1, h3], h4⟩

theorem lookup_of_key {α : Type} {l : List (String × α)} {k : String} (h : k ∈ l.map Prod.fst) : ∃ v, l.lookup k = some v := by
  induction l with
  | nil => cases h
  | cons p l ih =>
    rw [List.lookup_cons]
    by_cases hk : k = p.1
    · exact ⟨p.2, by simp [hk]⟩
    · have : (k == p.1) = false := by simpa using hk
      rw [this]
      refine ih ?_
      rcases List.mem_cons.mp h with h | h
      · exact absurd h hk
      · exact h

/-! ## Types -/

theorem fits_types {sub : String → String → Bool} : ∀ {types : List String} {t : List DFeat} (r : List DFeat), Fits sub types t →
    ((types.zip (t ++ r)).all fun (ty, f) => sub f.vtype ty) = true
  | [], _, _, _ => by simp
  | _ :: _, [], _, h => absurd h (by simp [Fits])
  | ty :: tys, f :: t, r, h => by
    simp only [List.cons_append, List.zip_cons_cons, List.all_cons, h.1, Bool.true_and]
    exact fits_types r h.2

theorem fits_all {sub : String → String → Bool} {x : String} : ∀ {types : List String} {t : List DFeat}, (∀ y ∈ types, y = x) →
    (Fits sub types t ↔ t.length = types.length ∧ ∀ f ∈ t, sub f.vtype x = true)
  | [], [], _ => by simp [Fits]
  | [], _ :: _, _ => by simp [Fits]
  | _ :: _, [], _ => by simp [Fits]
  | ty :: tys, f :: t, h => by
    obtain rfl := h ty List.mem_cons_self
    simp only [Fits, fits_all (types := tys) (t := t) fun y hy => h y (List.mem_cons_of_mem _ hy)]
    simp
    constructor
    · rintro ⟨a, b, c⟩; exact ⟨b, a, c⟩
    · rintro ⟨a, b, c⟩; exact ⟨b, a, c⟩

section
variable {S : Synth} {target : String} {M : Option Int}

/-- What has to hold for nothing to be raised. -/
structure Fit (S : Synth) : Prop where
  known : ∀ r ∈ S.rels, (∃ d ∈ S.ents, d.id = r.childE) ∧ ∃ d ∈ S.ents, d.id = r.parentE
  acyclic : Acyclic S.rels
  alts : ∀ p ∈ S.aggs ++ S.trans ++ S.groupbys, p.inputs ∈ p.alts
  alike : ∀ p ∈ S.aggs ++ S.trans ++ S.groupbys, p.commutative = true → ∀ x ∈ p.inputs, ∀ y ∈ p.inputs, x = y
  prims : ∀ p ∈ S.aggs ++ S.trans ++ S.groupbys, p.baseOfExclude = none
  seeds : ∀ f ∈ S.seeds, f.prim.baseOfExclude = none

theorem matchInputs_fits (hL : ∀ l, (S.L.setOrder l).Perm l) {types : List String} {fs : List DFeat} {comm req : Bool}
    (hd : Distinct fs) (hc : comm = true → ∀ x ∈ types, ∀ y ∈ types, x = y) {t : List DFeat}
    (h : t ∈ matchInputs S.L types fs false comm req) : Fits S.L.sub types t := by
  by_cases hn : types = []
  · subst hn; simp [matchInputs] at h
  · cases comm with
    | false => exact (((C43_ordered S.L types fs req hn hd).2 t).mp h).fits
    | true =>
      obtain ⟨⟨s, hs, hp⟩, _⟩ := (C43_commutative S.L hL types fs req hn hd).2.1 t h
      obtain ⟨x, hx⟩ := List.exists_mem_of_ne_nil _ hn
      have hall : ∀ y ∈ types, y = x := fun y hy => hc rfl y hy x hx
      obtain ⟨h1, h2⟩ := (fits_all hall).mp hs.fits
      exact (fits_all hall).mpr ⟨hp.length_eq.trans h1, fun f hf => h2 f (hp.mem_iff.mp hf)⟩

theorem matchingInputs_fits (hL : ∀ l, (S.L.setOrder l).Perm l) (hS : Fit S) {st : DState} (h : StateOk S target M st) {e : String}
    {m : Option Int} {p : Prim} (hp : p ∈ S.aggs ++ S.trans ++ S.groupbys) {req : Bool} {keep : DFeat → Bool} {t : List DFeat}
    (ht : t ∈ matchingInputs S st e m p req keep) : Fits S.L.sub p.inputs t := by
  unfold matchingInputs at ht
  obtain ⟨_, s, hs, hperm, hsame⟩ := mem_filterMatches ht
  have hs' : s ∈ matchInputs S.L p.inputs ((featuresByType S st e m (some p.inputs)).filter keep) false p.commutative req := by
    split at hs
    · exact (List.mem_filter.mp hs).1
    · exact hs
  obtain ⟨_, hd⟩ := featuresByType_spec h (e := e) (m := m) (types := some p.inputs)
  have hf := matchInputs_fits hL (List.Pairwise.filter keep hd) (hS.alike p hp) hs'
  cases hc : p.commutative with
  | false => rw [hsame hc]; exact hf
  | true =>
    cases hi : p.inputs with
    | nil => rw [hi] at hs'; simp [matchInputs] at hs'
    | cons x xs =>
      have hall : ∀ y ∈ p.inputs, y = x := fun y hy => hS.alike p hp hc y hy x (by simp [hi])
      rw [← hi]
      obtain ⟨h1, h2⟩ := (fits_all hall).mp hf
      exact (fits_all hall).mpr ⟨hperm.length_eq.trans h1, fun f hf => h2 f (hperm.mem_iff.mp hf)⟩

theorem typesOk_of_fits (hS : Fit S) {p : Prim} (hp : p ∈ S.aggs ++ S.trans ++ S.groupbys) {t : List DFeat} (r : List DFeat)
    (h : Fits S.L.sub p.inputs t) : typesOk S.L p (t ++ r) = true :=
  List.any_eq_true.mpr ⟨p.inputs, hS.alts p hp, fits_types r h⟩

/-! ## Steps -/

theorem addNew_answers {st : DState} {f : DFeat} (h : f.entity ∈ st.feats.map Prod.fst) :
    ∃ st', addNew S st f = .ok st' ∧ st'.feats.map Prod.fst = st.feats.map Prod.fst := by
  obtain ⟨fs, hfs⟩ := lookup_of_key h
  unfold addNew
  rw [hfs]
  dsimp only
  split
  · exact ⟨_, rfl, rfl⟩
  · exact ⟨_, rfl, setFor_keys _ _ _⟩

theorem addAll_answers {st : DState} {l : List DFeat} (h : ∀ f ∈ l, f.entity ∈ st.feats.map Prod.fst) :
    Answers (foldE (addNew S) st l) := by
  obtain ⟨s, hs, _⟩ := foldE_answers (f := addNew S) (fun s => s.feats.map Prod.fst = st.feats.map Prod.fst) (l := l) (s := st) rfl
    fun f hf s hs => by
      obtain ⟨s', h1, h2⟩ := addNew_answers (S := S) (st := s) (f := f) (hs ▸ h f hf)
      exact ⟨s', h1, h2.trans hs⟩
  exact ⟨s, hs⟩

theorem transOf_answers (hL : ∀ l, (S.L.setOrder l).Perm l) (hS : Fit S) {st : DState} (h : StateOk S target M st) (e : String)
    (m : Option Int) (req : Bool) {p : Prim} (hp : p ∈ S.trans) : Answers (transOf S st e m req p) := by
  unfold transOf
  split
  · exact ⟨_, rfl⟩
  · refine eachE_answers fun t ht => ?_
    have hp' : p ∈ S.aggs ++ S.trans ++ S.groupbys := by simp [hp]
    have := typesOk_of_fits hS hp' [] (matchingInputs_fits hL hS h hp' (List.mem_filter.mp ht).1)
    rw [List.append_nil] at this
    exact ⟨_, by unfold mkTrans; rw [if_pos this]⟩

theorem groupbyOf_answers (hL : ∀ l, (S.L.setOrder l).Perm l) (hS : Fit S) {st : DState} (h : StateOk S target M st) (e : String)
    (m : Option Int) (req : Bool) {p : Prim} (hp : p ∈ S.groupbys) : Answers (groupbyOf S st e m req p) := by
  unfold groupbyOf
  split
  · exact ⟨_, rfl⟩
  · refine gatherE_answers fun t ht => ?_
    split
    · exact ⟨_, rfl⟩
    · refine gatherE_answers fun g hg => ?_
      split
      · next g =>
        have hp' : p ∈ S.aggs ++ S.trans ++ S.groupbys := by simp [hp]
        have hty := typesOk_of_fits hS hp' [g] (matchingInputs_fits hL hS h hp' (List.mem_filter.mp ht).1)
        have hdisc : S.L.sub g.vtype "Discrete" = true := by
          unfold groupbyMatches at hg
          have hv := (mem_filterMatches hg).1
          have hvf : ∀ o, variableFilter S.L.sub g o true = true → S.L.sub g.vtype "Discrete" = true := by
            intro o ho
            unfold variableFilter at ho
            split at ho
            · cases ho
            · next hn => simpa using hn
          generalize S.opts p = os at hv
          match os, hv with
          | [], hv => cases hv
          | [o], hv => exact hvf o (by simpa [validMatch] using hv)
          | o :: o' :: os, hv => exact hvf o (by simpa [validMatch] using hv)
        have hmk : Answers (mkGroupby S e p t g) := ⟨_, by unfold mkGroupby; rw [if_pos (by rw [hdisc, hty]; rfl)]⟩
        obtain ⟨x, hx⟩ := hmk
        exact ⟨[x], by rw [hx]⟩
      · exact ⟨_, rfl⟩

theorem buildTransform_answers (hL : ∀ l, (S.L.setOrder l).Perm l) (hS : Fit S) {st : DState} (h : StateOk S target M st) {e : String}
    (he : e ∈ st.feats.map Prod.fst) (m : Option Int) (req : Bool) : Answers (buildTransform S e m req st) := by
  obtain ⟨a, ha⟩ := gatherE_answers (l := S.trans) fun p hp => transOf_answers hL hS h e (lower1 m) req hp
  obtain ⟨b, hb⟩ := gatherE_answers (l := S.groupbys) fun p hp => groupbyOf_answers hL hS h e (lower1 m) req hp
  unfold buildTransform
  rw [ha]
  dsimp only
  rw [hb]
  dsimp only
  refine addAll_answers fun f hf => ?_
  have : f.entity = e := by
    rcases List.mem_append.mp hf with hf | hf
    · obtain ⟨p, _, y, hy, hfy⟩ := mem_gatherE ha hf
      unfold transOf at hy
      split at hy
      · cases hy; cases hfy
      · obtain ⟨t, _, hx⟩ := mem_eachE hy hfy
        unfold mkTrans at hx
        split at hx
        · cases hx; rfl
        · cases hx
    · obtain ⟨p, _, y, hy, hfy⟩ := mem_gatherE hb hf
      unfold groupbyOf at hy
      split at hy
      · cases hy; cases hfy
      · obtain ⟨t, _, z, hz, hfz⟩ := mem_gatherE hy hfy
        split at hz
        · cases hz; cases hfz
        · obtain ⟨g, _, w, hw, hfw⟩ := mem_gatherE hz hfz
          split at hw
          · next g _ =>
            unfold mkGroupby at hw
            split at hw
            · next heq =>
              cases hw
              split at heq
              · cases heq
                simp only [List.mem_singleton] at hfw
                subst hfw; rfl
              · cases heq
            · cases hw
          · cases hw; cases hfw
  rw [this]; exact he

theorem built_plain (hS : Fit S) {f : DFeat} (h : Built S target M f) : f.prim.baseOfExclude = none := by
  induction h with
  | identity d v _ _ _ _ _ => rfl
  | seed f hf _ _ => exact hS.seeds f hf
  | slice f i _ _ _ ih => exact ih
  | trans e n p t hp => exact hS.prims p (by simp [hp])
  | groupby e n p t g hp => exact hS.prims p (by simp [hp])
  | agg e c n path p t hp => exact hS.prims p (by simp [hp])
  | aggWhere e c n path p t w f x v hp => exact hS.prims p (by simp [hp])
  | direct r f => rfl

theorem aggInput_answers (hS : Fit S) {st : DState} {e c : String} {path : RelPath} {p : Prim} (hp : p ∈ S.aggs)
    (he : e ∈ st.feats.map Prod.fst) {t : List DFeat} (ht : ∀ f ∈ t, Built S target M f) (hfit : Fits S.L.sub p.inputs t) :
    Answers (aggInput S e c path p st t) := by
  have hp' : p ∈ S.aggs ++ S.trans ++ S.groupbys := by simp [hp]
  have hty := typesOk_of_fits hS hp' [] hfit
  rw [List.append_nil] at hty
  have hst : Answers (stackOk p t) := by
    unfold stackOk
    split
    · exact ⟨_, rfl⟩
    · split
      · exact ⟨_, rfl⟩
      · split
        · exact ⟨_, rfl⟩
        · split
          · next hx =>
            obtain ⟨f, hf, hf'⟩ := List.any_eq_true.mp hx
            rw [built_plain hS (ht f hf)] at hf'
            cases hf'
          · exact ⟨_, rfl⟩
  obtain ⟨b, hb⟩ := hst
  unfold aggInput
  rw [hb]
  cases b with
  | false => exact ⟨_, rfl⟩
  | true =>
    dsimp only
    have hmk : ∀ w, ∃ f, mkAgg S e path p t w = .ok f ∧ f.entity = e := fun w =>
      ⟨_, by unfold mkAgg; rw [if_pos hty], rfl⟩
    obtain ⟨f, hf, hfe⟩ := hmk []
    rw [hf]
    dsimp only
    obtain ⟨s1, h1, h2⟩ := addNew_answers (S := S) (st := st) (f := f) (hfe ▸ he)
    rw [h1]
    dsimp only
    have hw : ∃ fs, whereFeatures S st e c path p t = .ok fs ∧ ∀ g ∈ fs, g.entity = e := by
      unfold whereFeatures
      split
      · exact ⟨[], rfl, by simp⟩
      · split
        · exact ⟨[], rfl, by simp⟩
        · obtain ⟨fs, hfs⟩ := eachE_answers (f := fun w => mkAgg S e path p t [w]) (l := (S.L.setOrder ((st.clauses.lookup c).getD [])).filter fun w =>
            !w.bases.any fun b => (t.map DFeat.uname).contains b.uname) fun w _ => by
              obtain ⟨g, hg, _⟩ := hmk [w]
              exact ⟨g, hg⟩
          refine ⟨fs, hfs, fun g hg => ?_⟩
          obtain ⟨w, _, hx⟩ := mem_eachE hfs hg
          obtain ⟨g', hg', he'⟩ := hmk [w]
          rw [hg'] at hx
          cases hx
          exact he'
    obtain ⟨fs, hfs, hfe'⟩ := hw
    rw [hfs]
    dsimp only
    exact addAll_answers fun g hg => by rw [hfe' g hg, h2]; exact he

theorem aggAll_answers (hL : ∀ l, (S.L.setOrder l).Perm l) (hS : Fit S) {st : DState} (h : StateOk S target M st) {e : String}
    (ho : Open S target e) (he : e ∈ st.feats.map Prod.fst) {path : RelPath} {m : Option Int} (hm : Level S target M e m) :
    Answers (aggAll S e path m st) := by
  obtain ⟨out, hout, _⟩ := C03_deep_backward S.rels hS.acyclic e
  unfold aggAll
  rw [hout]
  dsimp only
  have key := foldE_answers (f := fun st x => if allowedVia S path x then buildAgg S e x.1 x.2 m st else .ok st) (StepOk S target M st)
    (l := out) (s := st) (.refl h) fun x hx s hs => ?_
  · obtain ⟨s', h1, _⟩ := key; exact ⟨s', h1⟩
  split
  · next ha =>
    have hc := allowedVia_iff ha
    have hpath : (x.1, x.2) ∈ (deepBackwardEntities S.rels (S.rels.length + 1) e).getD [] := by rw [hout]; exact hx
    have hag := foldE_answers (f := aggPrimStep S e x.1 x.2 (lower1 m)) (StepOk S target M st) (l := S.aggs) (s := s) hs fun p hp s1 hs1 => ?_
    · obtain ⟨s', h1, h2⟩ := hag; exact ⟨s', h1, h2⟩
    unfold aggPrimStep
    split
    · exact ⟨s1, rfl, hs1⟩
    · next hi =>
      refine foldE_answers (f := aggInput S e x.1 x.2 p) (StepOk S target M st) hs1 fun t ht s2 hs2 => ?_
      obtain ⟨_, t', ht', _, hsame⟩ := mem_filterMatches ht
      obtain rfl := hsame rfl
      have hmat := matchingInputs_spec hL hs1.ok ht'
      obtain ⟨s3, h3⟩ := aggInput_answers (S := S) (target := target) (M := M) hS (c := x.1) (path := x.2) hp (st := s2) (e := e)
        (by rw [hs2.keys]; exact he) hmat.built (matchingInputs_fits hL hS hs1.ok (by simp [hp]) ht')
      exact ⟨s3, h3, hs2.trans (aggInput_step hL hs2.ok hp (by simpa using hi) ho hc hpath hm hmat h3)⟩
  · exact ⟨s, rfl, hs⟩

theorem middleSteps_answers (hL : ∀ l, (S.L.setOrder l).Perm l) (hS : Fit S) {st : DState} (h : StateOk S target M st) {e : String}
    (ho : Open S target e) (he : e ∈ st.feats.map Prod.fst) {path : RelPath} {m : Option Int} (hm : Level S target M e m) :
    Answers (middleSteps S e path m st) := by
  obtain ⟨s1, h1⟩ := aggAll_answers hL hS h ho he (path := path) hm
  have hs := aggAll_step hL h hm ho h1
  unfold middleSteps
  rw [h1]
  dsimp only
  exact buildTransform_answers hL hS hs.ok (by rw [hs.keys]; exact he) m false

theorem lastSteps_answers (hL : ∀ l, (S.L.setOrder l).Perm l) (hS : Fit S) {st : DState} (h : StateOk S target M st) {e : String}
    (ho : Open S target e) (he : e ∈ st.feats.map Prod.fst) {path : RelPath} {m : Option Int} (hm : Level S target M e m) :
    Answers (lastSteps S e path m st) := by
  have hd : Answers (directAll S e path m st) := by
    unfold directAll
    obtain ⟨s', h1, _⟩ := foldE_answers (f := fun st r => if allowedVia S path (r.parentE, [(true, r)]) then buildForward S r m st else .ok st)
      (fun s => s.feats.map Prod.fst = st.feats.map Prod.fst) (l := getForwardRelationships S.rels e) (s := st) rfl fun r hr s hs => by
        split
        · have hre : r.childE = e := by
            unfold getForwardRelationships at hr
            simpa using (List.mem_filter.mp hr).2
          unfold buildForward
          refine foldE_answers (f := addNew S) (fun s => s.feats.map Prod.fst = st.feats.map Prod.fst) hs fun f hf s2 hs2 => ?_
          obtain ⟨g, _, rfl⟩ := List.mem_map.mp hf
          obtain ⟨s3, h3, h4⟩ := addNew_answers (S := S) (st := s2) (f := mkDirect S r g) (by
            show r.childE ∈ _
            rw [hre, hs2]; exact he)
          exact ⟨s3, h3, h4.trans hs2⟩
        · exact ⟨s, rfl, hs⟩
    exact ⟨s', h1⟩
  obtain ⟨s1, h1⟩ := hd
  have hs := directAll_step h ho hm h1
  obtain ⟨s2, h2⟩ := buildTransform_answers hL hS hs.ok (by rw [hs.keys]; exact he) m true (e := e)
  unfold lastSteps
  rw [h1]
  dsimp only
  rw [h2]
  exact ⟨_, rfl⟩

theorem runDfs_answers (hL : ∀ l, (S.L.setOrder l).Perm l) (hS : Fit S) : ∀ (n : Nat) (st : DState) (e : String) (path : RelPath)
    (m : Option Int), StateOk S target M st → e ∉ st.feats.map Prod.fst → Open S target e → Level S target M e m →
    (∃ d ∈ S.ents, d.id = e) → unvisited S st < n →
    ∃ st', runDfs S n st e path m = .ok st' ∧ (exhausted m = false → e ∈ st'.feats.map Prod.fst)
  | 0, _, _, _, _, _, _, _, _, _, h => absurd h (Nat.not_lt_zero _)
  | n + 1, st, e, path, m, h, he, ho, hm, hent, hn => by
    have hvis : ∀ (s1 : DState) (l : List (String × RelPath)), (∀ x ∈ l, Level S target M x.1 (lower1 m)) →
        (∀ x ∈ l, ∃ d ∈ S.ents, d.id = x.1) → StateOk S target M s1 → unvisited S s1 < n →
        Answers (visitAll S (runDfs S n) path m s1 l) := by
      intro s1 l hl hk h1 hu
      unfold visitAll
      have key := foldE_answers (f := fun st x => if st.feats.any (fun p => p.1 == x.1) || !allowedVia S path x then .ok st
        else runDfs S n st x.1 (path ++ x.2) (lower1 m)) (VisitOk S target M s1) (l := l) (s := s1) ⟨h1, fun _ hx => hx⟩ fun x hx s hs => ?_
      · obtain ⟨s', h2, _⟩ := key; exact ⟨s', h2⟩
      by_cases hc : (s.feats.any (fun p => p.1 == x.1) || !allowedVia S path x) = true
      · rw [if_pos hc]; exact ⟨s, rfl, hs⟩
      · rw [if_neg hc]
        simp only [Bool.or_eq_true, Bool.not_eq_true', not_or, Bool.not_eq_false] at hc
        have h2 : x.1 ∉ s.feats.map Prod.fst := fun hmem => by
          obtain ⟨q, hq, hqx⟩ := List.mem_map.mp hmem
          exact hc.1 (List.any_eq_true.mpr ⟨q, hq, by simpa using hqx⟩)
        have h3 : Open S target x.1 := .inr (allowedVia_iff hc.2)
        obtain ⟨s', hr, _⟩ := runDfs_answers hL hS n s x.1 (path ++ x.2) (lower1 m) hs.ok h2 h3 (hl x hx) (hk x hx)
          (Nat.lt_of_le_of_lt (unvisited_mono hs.grows) hu)
        exact ⟨s', hr, hs.trans (runDfs_step hL n s s' _ _ _ hs.ok h2 h3 (hl x hx) hr)⟩
    show ∃ st', visit S (runDfs S n) st e path m = .ok st' ∧ (exhausted m = false → e ∈ st'.feats.map Prod.fst)
    unfold visit
    by_cases hex : exhausted m = true
    · rw [if_pos hex]; exact ⟨st, rfl, fun h => by rw [hex] at h; cases h⟩
    · rw [if_neg hex]
      cases hd : S.ents.find? (fun d => d.id == e) with
      | none =>
        obtain ⟨d, hd1, hd2⟩ := hent
        exact absurd hd2 (by simpa using List.find?_eq_none.mp hd d hd1)
      | some d =>
        obtain ⟨hd1, hd2⟩ := find_ent hd
        have h0 : StateOk S target M { st with feats := (e, []) :: st.feats } := by
          refine ⟨by simpa using ⟨by simpa using he, h.keys⟩, fun q hq => ?_, h.clauses⟩
          rcases List.mem_cons.mp hq with rfl | hq
          · exact ⟨ho, .nil, by simp⟩
          · exact h.feats q hq
        dsimp only
        obtain ⟨s1, hs1⟩ : Answers (addIdentity S d { st with feats := (e, []) :: st.feats }) := by
          unfold addIdentity
          refine addAll_answers fun f hf => ?_
          have : f.entity = e := by
            rcases List.mem_append.mp hf with hf | hf
            · obtain ⟨v, _, rfl⟩ := List.mem_map.mp hf
              exact hd2
            · have := (List.mem_filter.mp hf).2
              simp only [beq_iff_eq] at this
              exact this.trans hd2
          simp [this]
        rw [hs1]
        have h1 := (addIdentity_step h0 hd1 (hd2 ▸ ho) (hd2 ▸ hm.reached hex) hs1).visitOk
        have he1 : e ∈ s1.feats.map Prod.fst := h1.grows e (by simp)
        have hu : unvisited S s1 < n := by
          have := unvisited_enter (S := S) (st := st) (st' := s1) hd1 (hd2 ▸ he)
            (fun x hx => h1.grows x (by simp at hx ⊢; exact .inr hx)) (h1.grows _ (by simp [hd2]))
          omega
        dsimp only
        obtain ⟨s2, hs2⟩ := hvis s1 (getBackwardEntities S.rels e) (level_backward hm) (fun x hx => by
          unfold getBackwardEntities at hx
          obtain ⟨r, hr, rfl⟩ := List.mem_map.mp hx
          exact (hS.known r (by simp only [getBackwardRelationships] at hr; exact (List.mem_filter.mp hr).1)).1) h1.ok hu
        rw [hs2]
        have h2 := visitAll_step (runDfs_step hL n) h1.ok (level_backward hm) hs2
        have he2 := h2.grows e he1
        have hu2 : unvisited S s2 < n := Nat.lt_of_le_of_lt (unvisited_mono h2.grows) hu
        dsimp only
        obtain ⟨s3, hs3⟩ := middleSteps_answers hL hS h2.ok ho he2 (path := path) hm
        rw [hs3]
        have h3 := middleSteps_step hL h2.ok hm ho hs3
        have he3 : e ∈ s3.feats.map Prod.fst := by rw [h3.keys]; exact he2
        have hu3 : unvisited S s3 < n := Nat.lt_of_le_of_lt (unvisited_mono h3.visitOk.grows) hu2
        dsimp only
        obtain ⟨s4, hs4⟩ := hvis s3 (getForwardEntities S.rels e) (level_forward hm) (fun x hx => by
          unfold getForwardEntities at hx
          obtain ⟨r, hr, rfl⟩ := List.mem_map.mp hx
          exact (hS.known r (by simp only [getForwardRelationships] at hr; exact (List.mem_filter.mp hr).1)).2) h3.ok hu3
        rw [hs4]
        have h4 := visitAll_step (runDfs_step hL n) h3.ok (level_forward hm) hs4
        have he4 := h4.grows e he3
        dsimp only
        obtain ⟨s5, hs5⟩ := lastSteps_answers hL hS h4.ok ho he4 (path := path) hm
        refine ⟨s5, hs5, fun _ => ?_⟩
        exact (lastSteps_step hL h4.ok hm ho hs5).grows e he4

end
end FT
