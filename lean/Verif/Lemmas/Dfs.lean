import Verif.Model.Dfs
import Verif.Lemmas.Options
import Verif.Spec.Dfs
import Verif.Props.Match
namespace FT
open FT.Spec

/-! ## Loops -/

theorem foldE_inv {σ α ε : Type} {f : σ → α → Except ε σ} (P : σ → Prop) :
    ∀ {l : List α} {s s' : σ}, P s → (∀ a ∈ l, ∀ s s', P s → f s a = .ok s' → P s') → foldE f s l = .ok s' → P s'
  | [], s, s', hs, _, h => by simp only [foldE] at h; cases h; exact hs
  | a :: l, s, s', hs, hf, h => by
    simp only [foldE] at h
    cases h1 : f s a with
    | error e => simp [h1] at h
    | ok s1 =>
      simp only [h1] at h
      exact foldE_inv P (hf a List.mem_cons_self s s1 hs h1) (fun b hb => hf b (List.mem_cons_of_mem _ hb)) h

theorem foldE_congr {σ α ε : Type} {f g : σ → α → Except ε σ} (P : σ → Prop) :
    ∀ {l : List α} {s : σ}, P s → (∀ a ∈ l, ∀ s, P s → f s a = g s a) → (∀ a ∈ l, ∀ s s', P s → f s a = .ok s' → P s') →
      foldE f s l = foldE g s l
  | [], _, _, _, _ => rfl
  | a :: l, s, hs, hfg, hp => by
    simp only [foldE]
    rw [← hfg a List.mem_cons_self s hs]
    cases h1 : f s a with
    | error e => rfl
    | ok s1 =>
      exact foldE_congr P (hp a List.mem_cons_self s s1 hs h1) (fun b hb => hfg b (List.mem_cons_of_mem _ hb))
        (fun b hb => hp b (List.mem_cons_of_mem _ hb))

theorem foldE_error {σ α ε : Type} {f : σ → α → Except ε σ} (P : σ → Prop) (e : ε) :
    ∀ {l : List α} {s : σ}, P s → (∀ a ∈ l, ∀ s, P s → f s a ≠ .error e) → (∀ a ∈ l, ∀ s s', P s → f s a = .ok s' → P s') →
      foldE f s l ≠ .error e
  | [], _, _, _, _ => by simp [foldE]
  | a :: l, s, hs, hne, hp => by
    simp only [foldE]
    cases h1 : f s a with
    | error e' => intro h; exact hne a List.mem_cons_self s hs (by simpa [h1] using h)
    | ok s1 =>
      exact foldE_error P e (hp a List.mem_cons_self s s1 hs h1) (fun b hb => hne b (List.mem_cons_of_mem _ hb))
        (fun b hb => hp b (List.mem_cons_of_mem _ hb))

theorem mem_gatherE {α β ε : Type} {f : α → Except ε (List β)} :
    ∀ {l : List α} {r : List β} {x : β}, gatherE f l = .ok r → x ∈ r → ∃ a ∈ l, ∃ y, f a = .ok y ∧ x ∈ y
  | [], r, x, h, hx => by simp only [gatherE] at h; cases h; cases hx
  | a :: l, r, x, h, hx => by
    simp only [gatherE] at h
    cases h1 : f a with
    | error e => simp [h1] at h
    | ok y =>
      simp only [h1] at h
      cases h2 : gatherE f l with
      | error e => simp [h2] at h
      | ok z =>
        simp only [h2] at h
        cases h
        rcases List.mem_append.mp hx with hx | hx
        · exact ⟨a, List.mem_cons_self, y, h1, hx⟩
        · obtain ⟨b, hb, w, hw⟩ := mem_gatherE h2 hx
          exact ⟨b, List.mem_cons_of_mem _ hb, w, hw⟩

theorem mem_eachE {α : Type} {f : α → Except DfsErr DFeat} {l : List α} {r : List DFeat} {x : DFeat} (h : eachE f l = .ok r)
    (hx : x ∈ r) : ∃ a ∈ l, f a = .ok x := by
  obtain ⟨a, ha, y, hy, hxy⟩ := mem_gatherE h hx
  cases h1 : f a with
  | error e => simp [h1] at hy
  | ok z =>
    simp only [h1] at hy
    cases hy
    simp only [List.mem_singleton] at hxy
    exact ⟨a, ha, by rw [hxy, h1]⟩

/-! ## What the synthesis can build -/

/-- The visited entities: the target, or one that is not ignored. -/
def Open (S : Synth) (target e : String) : Prop := e = target ∨ e ∉ S.ignoreEnts

/-- A visited entity is no further from the target than the limit. -/
def Reached (S : Synth) (target : String) (M : Option Int) (e : String) : Prop :=
  ∃ n, Walk S.rels target e n ∧ ∀ k, M = some k → (n : Int) ≤ k

/-- Within the limit minus one. -/
def Below (S : Synth) (M : Option Int) (f : DFeat) : Prop := ∀ k, M = some k → (f.depth (S.seeds.map DFeat.uname) : Int) ≤ k - 1

/-- Within the limit. -/
def Upto (S : Synth) (M : Option Int) (f : DFeat) : Prop := ∀ k, M = some k → (f.depth (S.seeds.map DFeat.uname) : Int) ≤ k

/-- What every input of a built feature satisfies: `e` is their entity, `v` the entity whose visit builds the feature. -/
structure Inputs (S : Synth) (target : String) (M : Option Int) (v e : String) (p : Prim) (t : List DFeat) : Prop where
  entity : ∀ f ∈ t, f.entity = e
  level : ∃ n, Walk S.rels target v n ∧ ∀ f ∈ t, Below S (M.map fun k : Int => k - (n : Int)) f
  valid : validMatch S.L.sub (S.opts p) false t = true
  distinct : Distinct t
  length : t.length = p.inputs.length
  nonempty : t ≠ []
  types : typesOk S.L p t = true

/-- A where clause: a comparison of a (parent's) variable with one of its interesting values. -/
inductive Clause (S : Synth) (B : DFeat → Prop) : DFeat → Prop
  | mk (f : DFeat) (x : String × String) (v : Val) : B f → varOf f = some x → v ∈ interestingOf S x → Clause S B (clauseOf S f v)

/-- The rules by which features are built. -/
inductive Built (S : Synth) (target : String) (M : Option Int) : DFeat → Prop
  | identity (d : DEnt) (v : DVar) : d ∈ S.ents → v ∈ d.vars → v.name ∉ S.ignoreVars d.id → Open S target d.id → Reached S target M d.id →
      Built S target M (identityOf d v)
  | seed (f : DFeat) : f ∈ S.seeds → Open S target f.entity → Reached S target M f.entity → Built S target M f
  | slice (f : DFeat) (i : Nat) : Built S target M f → f.outputs > 1 → i < f.outputs → Built S target M (sliceOf S f i)
  | trans (e n : String) (p : Prim) (t : List DFeat) : p ∈ S.trans → ignoreEntityFor (S.opts p) e false = false → Open S target e →
      (∀ f ∈ t, Built S target M f) → Inputs S target M e e p t → (∀ f ∈ t, f.outputs = 1) → transStackOk t = true →
      Built S target M (.mk (.trans p) e n t [])
  | groupby (e n : String) (p : Prim) (t : List DFeat) (g : DFeat) : p ∈ S.groupbys → ignoreEntityFor (S.opts p) e true = false →
      Open S target e → (∀ f ∈ t, Built S target M f) → Built S target M g → (∀ f ∈ t, f.entity = e) → g.entity = e →
      (∃ n, Walk S.rels target e n ∧ ∀ f ∈ t ++ [g], Below S (M.map fun k : Int => k - (n : Int)) f) → validMatch S.L.sub (S.opts p) false t = true →
      validMatch S.L.sub (S.opts p) true [g] = true → (∀ f ∈ t, f.outputs = 1) → transStackOk t = true →
      S.L.sub g.vtype "Discrete" = true → t ≠ [] → g.outputs ≤ 1 → Built S target M (.mk (.groupby p) e n (t ++ [g]) [])
  | agg (e c n : String) (path : RelPath) (p : Prim) (t : List DFeat) : p ∈ S.aggs → ignoreEntityFor (S.opts p) c false = false →
      Open S target e → Open S target c → c ∉ S.ignoreEnts → (c, path) ∈ (deepBackwardEntities S.rels (S.rels.length + 1) e).getD [] →
      (∀ f ∈ t, Built S target M f) → Inputs S target M e c p t → (∀ f ∈ t, aggKeep e path f = true) → stackOk p t = .ok true →
      Built S target M (.mk (.agg path p) e n t [])
  | aggWhere (e c n : String) (path : RelPath) (p : Prim) (t : List DFeat) (w : DFeat) (f : DFeat) (x : String × String) (v : Val) :
      p ∈ S.aggs → ignoreEntityFor (S.opts p) c false = false →
      Open S target e → Open S target c → c ∉ S.ignoreEnts → (c, path) ∈ (deepBackwardEntities S.rels (S.rels.length + 1) e).getD [] →
      (∀ f ∈ t, Built S target M f) → Inputs S target M e c p t → (∀ f ∈ t, aggKeep e path f = true) → stackOk p t = .ok true →
      (whereCount t : Int) < S.whereLimit → (∃ q ∈ S.wheres, q.cls ∈ p.supers) →
      Built S target M f → varOf f = some x → v ∈ interestingOf S x → w = clauseOf S f v → f.entity = c →
      (∀ b ∈ t, b.uname ≠ f.uname) →
      Built S target M (.mk (.agg path p) e n t [w])
  | direct (r : Relationship) (f : DFeat) : r ∈ S.rels → Built S target M f → f.entity = r.parentE → Upto S M f → Open S target r.childE →
      r.parentE ∉ S.ignoreEnts → inRelPath [(true, r)] f = false → f.outputs ≤ 1 → Built S target M (mkDirect S r f)

/-- Features kept in the dicts are whole features, unless they are seeds. -/
def Whole (S : Synth) (f : DFeat) : Prop := f ∈ S.seeds ∨ ∀ n, f.kind ≠ .slice n

/-- The state of the search. -/
structure StateOk (S : Synth) (target : String) (M : Option Int) (st : DState) : Prop where
  keys : (st.feats.map Prod.fst).Nodup
  feats : ∀ q ∈ st.feats, Open S target q.1 ∧ Distinct q.2 ∧ ∀ f ∈ q.2, Built S target M f ∧ f.entity = q.1 ∧ Whole S f
  clauses : ∀ q ∈ st.clauses, ∀ c ∈ q.2, Clause S (fun f => Built S target M f ∧ f.entity = q.1) c

/-! ## Dicts -/

theorem lookup_mem_pair {α : Type} {l : List (String × α)} {k : String} {v : α} (h : l.lookup k = some v) : (k, v) ∈ l := by
  induction l with
  | nil => simp at h
  | cons p l ih =>
    obtain ⟨a, b⟩ := p
    rw [List.lookup_cons] at h
    by_cases hk : k = a
    · subst hk; simp at h; simp [h]
    · have : (k == a) = false := by simpa using hk
      rw [this] at h
      exact List.mem_cons_of_mem _ (ih h)

theorem setFor_keys (d : List (String × List DFeat)) (e : String) (fs : List DFeat) : (setFor d e fs).map Prod.fst = d.map Prod.fst := by
  unfold setFor
  rw [List.map_map]
  refine List.map_congr_left fun p _ => ?_
  simp only [Function.comp]
  split <;> simp_all

theorem mem_setFor {d : List (String × List DFeat)} {e : String} {fs : List DFeat} {q : String × List DFeat} (h : q ∈ setFor d e fs) :
    q ∈ d ∨ q = (e, fs) := by
  unfold setFor at h
  obtain ⟨p, hp, rfl⟩ := List.mem_map.mp h
  split
  · exact .inr rfl
  · exact .inl hp

theorem any_uname_iff {fs : List DFeat} {f : DFeat} : (fs.any fun g => g.uname == f.uname) = true ↔ ∃ g ∈ fs, g.uname = f.uname := by
  simp

theorem mem_putFeature {fs : List DFeat} {f g : DFeat} (h : g ∈ putFeature fs f) : g ∈ fs ∨ g = f := by
  unfold putFeature at h
  split at h
  · obtain ⟨a, ha, rfl⟩ := List.mem_map.mp h
    split
    · exact .inr rfl
    · exact .inl ha
  · rcases List.mem_append.mp h with h | h
    · exact .inl h
    · exact .inr (by simpa using h)

theorem distinct_iff {fs : List DFeat} : Distinct fs ↔ (fs.map DFeat.uname).Nodup := by
  unfold Distinct List.Nodup
  rw [List.pairwise_map]

theorem putFeature_distinct {fs : List DFeat} {f : DFeat} (h : Distinct fs) : Distinct (putFeature fs f) := by
  unfold putFeature
  split
  · rw [distinct_iff, List.map_map]
    have : (fs.map (DFeat.uname ∘ fun g => if g.uname = f.uname then f else g)) = fs.map DFeat.uname := by
      refine List.map_congr_left fun g _ => ?_
      simp only [Function.comp]
      split
      · next h => rw [h]
      · rfl
    rw [this]
    exact distinct_iff.mp h
  · next hn =>
    rw [any_uname_iff] at hn
    refine List.pairwise_append.mpr ⟨h, List.pairwise_singleton _ _, fun a ha b hb => ?_⟩
    simp only [List.mem_singleton] at hb
    subst hb
    exact fun e => hn ⟨a, ha, e⟩

/-! ## Adding features -/

section
variable {S : Synth} {target : String} {M : Option Int}

/-- A step of the search: the invariant holds afterwards and the visited entities and clauses are the same. -/
structure StepOk (S : Synth) (target : String) (M : Option Int) (st st' : DState) : Prop where
  ok : StateOk S target M st'
  keys : st'.feats.map Prod.fst = st.feats.map Prod.fst
  clauses : st'.clauses = st.clauses

theorem StepOk.refl {st : DState} (h : StateOk S target M st) : StepOk S target M st st := ⟨h, rfl, rfl⟩
theorem StepOk.trans {a b c : DState} (h1 : StepOk S target M a b) (h2 : StepOk S target M b c) : StepOk S target M a c :=
  ⟨h2.ok, h2.keys.trans h1.keys, h2.clauses.trans h1.clauses⟩

theorem addNew_step {st st' : DState} {f : DFeat} (h : StateOk S target M st) (hf : Built S target M f) (hw : Whole S f)
    (ha : addNew S st f = .ok st') : StepOk S target M st st' := by
  unfold addNew at ha
  split at ha
  · cases ha
  · next fs hfs =>
    have hm := lookup_mem_pair hfs
    split at ha
    · cases ha; exact .refl h
    · cases ha
      refine ⟨⟨?_, ?_, h.clauses⟩, setFor_keys _ _ _, rfl⟩
      · rw [setFor_keys]; exact h.keys
      · intro q hq
        rcases mem_setFor hq with hq | rfl
        · exact h.feats q hq
        · obtain ⟨h1, h2, h3⟩ := h.feats _ hm
          refine ⟨h1, putFeature_distinct h2, fun g hg => ?_⟩
          rcases mem_putFeature hg with hg | rfl
          · exact h3 g hg
          · exact ⟨hf, rfl, hw⟩

theorem addAll_step {st st' : DState} {l : List DFeat} (h : StateOk S target M st) (hl : ∀ f ∈ l, Built S target M f ∧ Whole S f)
    (ha : foldE (addNew S) st l = .ok st') : StepOk S target M st st' :=
  foldE_inv (StepOk S target M st) (.refl h) (fun f hf s s' hs he => hs.trans (addNew_step hs.ok (hl f hf).1 (hl f hf).2 he)) ha

theorem addIdentity_step {st st' : DState} {d : DEnt} (h : StateOk S target M st) (hd : d ∈ S.ents) (ho : Open S target d.id)
    (hr : Reached S target M d.id)
    (ha : addIdentity S d st = .ok st') : StepOk S target M st st' := by
  refine addAll_step h (fun f hf => ?_) ha
  rcases List.mem_append.mp hf with hf | hf
  · obtain ⟨v, hv, rfl⟩ := List.mem_map.mp hf
    obtain ⟨h1, h2⟩ := List.mem_filter.mp hv
    exact ⟨.identity d v hd h1 (by simpa using h2) ho hr, .inr fun n => by simp [identityOf, DFeat.kind]⟩
  · obtain ⟨h1, h2⟩ := List.mem_filter.mp hf
    simp only [beq_iff_eq] at h2
    exact ⟨.seed f h1 (h2 ▸ ho) (h2 ▸ hr), .inl h1⟩

/-! ## Candidates -/

theorem foldl_put_mem {α : Type} {mk : α → DFeat} {g : DFeat} : ∀ {l : List α} {d : List DFeat},
    g ∈ l.foldl (fun d i => putFeature d (mk i)) d → g ∈ d ∨ ∃ i ∈ l, g = mk i
  | [], _, h => .inl h
  | i :: l, d, h => by
    rcases foldl_put_mem (l := l) h with h | ⟨j, hj, rfl⟩
    · rcases mem_putFeature h with h | h
      · exact .inl h
      · exact .inr ⟨i, List.mem_cons_self, h⟩
    · exact .inr ⟨j, List.mem_cons_of_mem _ hj, rfl⟩

theorem foldl_put_distinct {α : Type} {mk : α → DFeat} : ∀ {l : List α} {d : List DFeat}, Distinct d →
    Distinct (l.foldl (fun d i => putFeature d (mk i)) d)
  | [], _, h => h
  | _ :: l, _, h => foldl_put_distinct (l := l) (putFeature_distinct h)

theorem expandOne_mem {d : List DFeat} {f g : DFeat} (h : g ∈ expandOne S d f) :
    g ∈ d ∨ ∃ i, f.outputs > 1 ∧ i < f.outputs ∧ g = sliceOf S f i := by
  unfold expandOne at h
  split at h
  · next ho =>
    rcases foldl_put_mem h with h | ⟨i, hi, rfl⟩
    · exact .inl (List.mem_filter.mp h).1
    · exact .inr ⟨i, ho, by simpa using hi, rfl⟩
  · exact .inl h

theorem expandOne_distinct {d : List DFeat} {f : DFeat} (h : Distinct d) : Distinct (expandOne S d f) := by
  unfold expandOne
  split
  · exact foldl_put_distinct (List.Pairwise.filter _ h)
  · exact h

theorem expand_spec {P : DFeat → Prop} (hs : ∀ f i, P f → f.outputs > 1 → i < f.outputs → P (sliceOf S f i)) :
    ∀ {fs d : List DFeat}, (∀ f ∈ fs, P f) → (∀ f ∈ d, P f) → Distinct d →
      (∀ f ∈ fs.foldl (expandOne S) d, P f) ∧ Distinct (fs.foldl (expandOne S) d)
  | [], _, _, hd, hdd => ⟨hd, hdd⟩
  | f :: fs, d, hfs, hd, hdd => by
    refine expand_spec hs (fs := fs) (fun g hg => hfs g (List.mem_cons_of_mem _ hg)) (fun g hg => ?_) (expandOne_distinct hdd)
    rcases expandOne_mem hg with hg | ⟨i, h1, h2, rfl⟩
    · exact hd g hg
    · exact hs f i (hfs f List.mem_cons_self) h1 h2

theorem featuresByType_spec {st : DState} (h : StateOk S target M st) {e : String} {m : Option Int} {types : Option (List String)} :
    (∀ f ∈ featuresByType S st e m types, Built S target M f ∧ f.entity = e ∧ withinDepth m (f.depth (S.seeds.map DFeat.uname)) = true ∧
      Open S target e) ∧ Distinct (featuresByType S st e m types) := by
  unfold featuresByType
  split
  · exact ⟨by simp, .nil⟩
  · split
    · exact ⟨by simp, .nil⟩
    · next fs hfs =>
      obtain ⟨h1, h2, h3⟩ := h.feats _ (lookup_mem_pair hfs)
      have := expand_spec (S := S) (P := fun f => Built S target M f ∧ f.entity = e)
        (fun f i hf ho hi => ⟨.slice f i hf.1 ho hi, hf.2⟩) (fun f hf => ⟨(h3 f hf).1, (h3 f hf).2.1⟩) (fun f hf => ⟨(h3 f hf).1, (h3 f hf).2.1⟩) h2
      refine ⟨fun f hf => ?_, List.Pairwise.filter _ this.2⟩
      obtain ⟨hf1, hf2⟩ := List.mem_filter.mp hf
      simp only [Bool.and_eq_true] at hf2
      exact ⟨(this.1 f hf1).1, (this.1 f hf1).2, hf2.2, h1⟩

theorem expand_single : ∀ {fs d : List DFeat}, (∀ g ∈ d, g.outputs > 1 → g ∈ fs) → ∀ g ∈ fs.foldl (expandOne S) d, g.outputs ≤ 1
  | [], _, h, g, hg => by
    rcases Nat.lt_or_ge 1 g.outputs with h1 | h1
    · exact absurd (h g hg h1) (by simp)
    · exact h1
  | f :: fs, d, h, g, hg => by
    refine expand_single (fs := fs) (fun g hg h1 => ?_) g hg
    have hd : g ∈ d ∧ (f.outputs > 1 → g ≠ f) := by
      unfold expandOne at hg
      split at hg
      · rcases foldl_put_mem hg with hg | ⟨i, _, rfl⟩
        · obtain ⟨h2, h3⟩ := List.mem_filter.mp hg
          exact ⟨h2, fun _ e => by simp [e] at h3⟩
        · simp [sliceOf, DFeat.outputs] at h1
      · next hn => exact ⟨hg, fun h2 => absurd h2 hn⟩
    rcases List.mem_cons.mp (h g hd.1 h1) with rfl | h2
    · exact absurd rfl (hd.2 h1)
    · exact h2

/-- Features of several outputs are given as their outputs. -/
theorem featuresByType_single {st : DState} {e : String} {m : Option Int} {types : Option (List String)} :
    ∀ f ∈ featuresByType S st e m types, f.outputs ≤ 1 := by
  unfold featuresByType
  split
  · simp
  · split
    · simp
    · next fs hfs =>
      intro f hf
      exact expand_single (fun g hg _ => hg) f (List.mem_filter.mp hf).1

/-- Every match is made of the given features, distinct, of the right number. -/
theorem matchInputs_sound (hL : ∀ l, (S.L.setOrder l).Perm l) {types : List String} {fs : List DFeat} {comm req : Bool}
    (hd : Distinct fs) {t : List DFeat} (h : t ∈ matchInputs S.L types fs false comm req) :
    (∀ f ∈ t, f ∈ fs) ∧ Distinct t ∧ t.length = types.length ∧ t ≠ [] := by
  have fitsLen : ∀ {sub : String → String → Bool} {ts : List String} {t : List DFeat}, Fits sub ts t → t.length = ts.length := by
    intro sub ts
    induction ts with
    | nil => intro t h; cases t with
      | nil => rfl
      | cons => exact absurd h (by simp [Fits])
    | cons ty ts ih => intro t h; cases t with
      | nil => exact absurd h (by simp [Fits])
      | cons f t => simp [ih h.2]
  by_cases hn : types = []
  · subst hn; simp [matchInputs] at h
  · have hpos : types.length > 0 := List.length_pos_iff.mpr hn
    cases comm with
    | false =>
      have := ((C43_ordered S.L types fs req hn hd).2 t).mp h
      refine ⟨this.given, this.different, fitsLen this.fits, fun e => ?_⟩
      have := fitsLen this.fits; rw [e] at this; simp at this; omega
    | true =>
      obtain ⟨⟨s, hs, hp⟩, _⟩ := (C43_commutative S.L hL types fs req hn hd).2.1 t h
      have hl : t.length = types.length := hp.length_eq.trans (fitsLen hs.fits)
      refine ⟨fun f hf => hs.given f (hp.mem_iff.mp hf), ?_, hl, fun e => ?_⟩
      · rw [distinct_iff]
        exact (hp.map DFeat.uname).nodup_iff.mpr (distinct_iff.mp hs.different)
      · rw [e] at hl; simp at hl; omega

/-- The limit of the visit of `e`: that of the search, less the length of a walk from the target. -/
def Level (S : Synth) (target : String) (M : Option Int) (e : String) (m : Option Int) : Prop :=
  ∃ n : Nat, Walk S.rels target e n ∧ m = M.map fun k : Int => k - (n : Int)

theorem Level.le {e : String} {m : Option Int} (h : Level S target M e m) {d : Nat} (hd : withinDepth m d = true) : withinDepth M d = true := by
  obtain ⟨n, _, rfl⟩ := h
  cases M with
  | none => rfl
  | some k => simp [withinDepth] at hd ⊢; omega

theorem Level.next {e e' : String} {m : Option Int} (h : Level S target M e m) (he : ∀ n, Walk S.rels target e n → Walk S.rels target e' (n + 1)) :
    Level S target M e' (lower1 m) := by
  obtain ⟨n, hn, rfl⟩ := h
  refine ⟨n + 1, he n hn, ?_⟩
  cases M with
  | none => rfl
  | some k => simp [lower1]; omega

theorem Level.reached {e : String} {m : Option Int} (h : Level S target M e m) (hx : ¬exhausted m = true) : Reached S target M e := by
  obtain ⟨n, hn, rfl⟩ := h
  refine ⟨n, hn, fun k hk => ?_⟩
  subst hk
  simp [exhausted] at hx
  omega

theorem below_of_within {n : Nat} {f : DFeat}
    (h : withinDepth (lower1 (M.map fun k : Int => k - (n : Int))) (f.depth (S.seeds.map DFeat.uname)) = true) : Below S (M.map fun k : Int => k - (n : Int)) f := by
  intro k hk
  rw [hk] at h
  simpa [lower1, withinDepth] using h

/-- What `_get_matching_inputs` gives. -/
structure Matched (S : Synth) (target : String) (M : Option Int) (m : Option Int) (e : String) (p : Prim) (keep : DFeat → Bool) (t : List DFeat) : Prop where
  built : ∀ f ∈ t, Built S target M f
  entity : ∀ f ∈ t, f.entity = e
  below : ∀ f ∈ t, withinDepth (lower1 m) (f.depth (S.seeds.map DFeat.uname)) = true
  valid : validMatch S.L.sub (S.opts p) false t = true
  distinct : Distinct t
  length : t.length = p.inputs.length
  nonempty : t ≠ []
  kept : ∀ f ∈ t, keep f = true
  visited : Open S target e

theorem matchingInputs_spec (hL : ∀ l, (S.L.setOrder l).Perm l) {st : DState} (h : StateOk S target M st) {e : String} {m : Option Int}
    {p : Prim} {req : Bool} {keep : DFeat → Bool} {t : List DFeat}
    (ht : t ∈ matchingInputs S st e (lower1 m) p req keep) : Matched S target M m e p keep t := by
  unfold matchingInputs at ht
  obtain ⟨hv, s, hs, hp, _⟩ := mem_filterMatches ht
  have hs' : s ∈ matchInputs S.L p.inputs ((featuresByType S st e (lower1 m) (some p.inputs)).filter keep) false p.commutative req := by
    split at hs
    · exact (List.mem_filter.mp hs).1
    · exact hs
  obtain ⟨hf, hd⟩ := featuresByType_spec h (e := e) (m := lower1 m) (types := some p.inputs)
  obtain ⟨h1, h2, h3, h4⟩ := matchInputs_sound hL (List.Pairwise.filter keep hd) hs'
  have hmem : ∀ f ∈ t, f ∈ featuresByType S st e (lower1 m) (some p.inputs) ∧ keep f = true := fun f hf' =>
    List.mem_filter.mp (h1 f (hp.mem_iff.mp hf'))
  have hne : t ≠ [] := fun e' => h4 (by rw [e'] at hp; exact hp.symm.eq_nil)
  obtain ⟨f0, hf0⟩ := List.exists_mem_of_ne_nil t hne
  exact ⟨fun f hf' => (hf f (hmem f hf').1).1, fun f hf' => (hf f (hmem f hf').1).2.1,
    fun f hf' => (hf f (hmem f hf').1).2.2.1, hv,
    distinct_iff.mpr ((hp.map DFeat.uname).nodup_iff.mpr (distinct_iff.mp h2)), hp.length_eq.trans h3, hne,
    fun f hf' => (hmem f hf').2, (hf f0 (hmem f0 hf0).1).2.2.2⟩

/-! ## Transform features -/

theorem transInputs_spec (hL : ∀ l, (S.L.setOrder l).Perm l) {st : DState} (h : StateOk S target M st) {e : String} {m : Option Int}
    {p : Prim} {req : Bool} {t : List DFeat} (ht : t ∈ transInputs S st e (lower1 m) p req) :
    Matched S target M m e p (fun _ => true) t ∧ (∀ f ∈ t, f.outputs = 1) ∧ transStackOk t = true := by
  obtain ⟨h1, h2⟩ := List.mem_filter.mp ht
  simp only [Bool.and_eq_true, List.all_eq_true, beq_iff_eq] at h2
  exact ⟨matchingInputs_spec hL h h1, h2.1, h2.2⟩

theorem transOf_built (hL : ∀ l, (S.L.setOrder l).Perm l) {st : DState} (h : StateOk S target M st) {e : String} {m : Option Int}
    (hm : Level S target M e m) {req : Bool} {p : Prim} (hp : p ∈ S.trans) {r : List DFeat} (hr : transOf S st e (lower1 m) req p = .ok r) :
    ∀ f ∈ r, Built S target M f ∧ Whole S f := by
  intro f hf
  obtain ⟨n, hn, rfl⟩ := hm
  unfold transOf at hr
  split at hr
  · cases hr; cases hf
  · next hi =>
    obtain ⟨t, ht, hx⟩ := mem_eachE hr hf
    obtain ⟨hm', ho, hs⟩ := transInputs_spec hL h ht
    unfold mkTrans at hx
    split at hx
    · next hty =>
      cases hx
      exact ⟨.trans e _ p t hp (by simpa using hi) hm'.visited hm'.built ⟨hm'.entity, ⟨n, hn, fun f hf => below_of_within (hm'.below f hf)⟩, hm'.valid, hm'.distinct, hm'.length, hm'.nonempty, hty⟩ ho hs, .inr fun n => by simp [DFeat.kind]⟩
    · cases hx

theorem groupbyMatches_spec {st : DState} (h : StateOk S target M st) {e : String} {m : Option Int} {p : Prim}
    {g : DFeat} (hg : [g] ∈ groupbyMatches S st e (lower1 m) p) :
    Built S target M g ∧ g.entity = e ∧ withinDepth (lower1 m) (g.depth (S.seeds.map DFeat.uname)) = true ∧ validMatch S.L.sub (S.opts p) true [g] = true ∧
      g.outputs ≤ 1 := by
  unfold groupbyMatches at hg
  obtain ⟨hv, s, hs, hp, he⟩ := mem_filterMatches hg
  rw [← he rfl] at hs
  obtain ⟨f, hf, hfg⟩ := List.mem_map.mp hs
  cases hfg
  have := (featuresByType_spec h).1 _ hf
  exact ⟨this.1, this.2.1, this.2.2.1, hv, featuresByType_single _ hf⟩

theorem groupbyOf_built (hL : ∀ l, (S.L.setOrder l).Perm l) {st : DState} (h : StateOk S target M st) {e : String} {m : Option Int}
    (hm : Level S target M e m) {req : Bool} {p : Prim} (hp : p ∈ S.groupbys) {r : List DFeat} (hr : groupbyOf S st e (lower1 m) req p = .ok r) :
    ∀ f ∈ r, Built S target M f ∧ Whole S f := by
  intro f hf
  obtain ⟨n, hn, rfl⟩ := hm
  unfold groupbyOf at hr
  split at hr
  · cases hr; cases hf
  · next hi =>
    obtain ⟨t, ht, y, hy, hfy⟩ := mem_gatherE hr hf
    obtain ⟨hm', ho, hs⟩ := transInputs_spec hL h ht
    split at hy
    · cases hy; cases hfy
    · obtain ⟨g, hg, z, hz, hfz⟩ := mem_gatherE hy hfy
      split at hz
      · next g =>
        obtain ⟨g1, g2, g3, g4, g5⟩ := groupbyMatches_spec h hg
        unfold mkGroupby at hz
        split at hz
        · next heq =>
          split at heq
          · next hc =>
            simp only [Bool.and_eq_true] at hc
            cases heq; cases hz
            simp only [List.mem_singleton] at hfz
            subst hfz
            refine ⟨.groupby e _ p t g hp (by simpa using hi) hm'.visited hm'.built g1 hm'.entity g2 ⟨n, hn, fun f hf => ?_⟩ hm'.valid g4 ho hs hc.1 hm'.nonempty g5, .inr fun n => by simp [DFeat.kind]⟩
            rcases List.mem_append.mp hf with hf | hf
            · exact below_of_within (hm'.below f hf)
            · simp only [List.mem_singleton] at hf
              subst hf
              exact below_of_within g3
          · cases heq
        · cases hz
      · cases hz; cases hfz

theorem buildTransform_step (hL : ∀ l, (S.L.setOrder l).Perm l) {st st' : DState} (h : StateOk S target M st) {e : String} {m : Option Int}
    (hm : Level S target M e m) {req : Bool} (hb : buildTransform S e m req st = .ok st') : StepOk S target M st st' := by
  unfold buildTransform at hb
  split at hb
  · cases hb
  · next a ha =>
    split at hb
    · cases hb
    · next b hb' =>
      refine addAll_step h (fun f hf => ?_) hb
      rcases List.mem_append.mp hf with hf | hf
      · obtain ⟨p, hp, y, hy, hfy⟩ := mem_gatherE ha hf
        exact transOf_built hL h hm hp hy f hfy
      · obtain ⟨p, hp, y, hy, hfy⟩ := mem_gatherE hb' hf
        exact groupbyOf_built hL h hm hp hy f hfy

/-! ## Direct features -/

theorem buildForward_step {st st' : DState} (h : StateOk S target M st) {r : Relationship} (hr : r ∈ S.rels)
    (ho : Open S target r.childE) (hp : r.parentE ∉ S.ignoreEnts) {e : String} {m : Option Int} (hm : Level S target M e m)
    (hb : buildForward S r m st = .ok st') : StepOk S target M st st' := by
  refine addAll_step h (fun f hf => ?_) hb
  obtain ⟨g, hg, rfl⟩ := List.mem_map.mp hf
  obtain ⟨h1, h2⟩ := List.mem_filter.mp hg
  have := (featuresByType_spec h).1 g h1
  refine ⟨.direct r g hr this.1 this.2.1 (fun k hk => ?_) ho hp (by simpa using h2) (featuresByType_single g h1), .inr fun n => by simp [mkDirect, DFeat.kind]⟩
  have h3 := hm.le this.2.2.1
  rw [hk] at h3
  simpa [withinDepth] using h3

theorem allowedVia_iff {path : RelPath} {x : String × RelPath} (h : allowedVia S path x = true) : x.1 ∉ S.ignoreEnts := by
  unfold allowedVia at h
  simp only [Bool.and_eq_true] at h
  simpa using h.1

theorem directAll_step {st st' : DState} (h : StateOk S target M st) {e : String} (ho : Open S target e) {path : RelPath} {m : Option Int}
    (hm : Level S target M e m) (hb : directAll S e path m st = .ok st') : StepOk S target M st st' := by
  refine foldE_inv (StepOk S target M st) (.refl h) (fun r hr s s' hs he => ?_) hb
  obtain ⟨h1, h2⟩ := List.mem_filter.mp hr
  simp only [beq_iff_eq] at h2
  split at he
  · next ha => exact hs.trans (buildForward_step hs.ok h1 (h2 ▸ ho) (allowedVia_iff ha) hm he)
  · cases he; exact hs

/-! ## Aggregations -/

theorem aggInput_step (hL : ∀ l, (S.L.setOrder l).Perm l) {st st' : DState} (h : StateOk S target M st) {e c : String} {path : RelPath}
    {p : Prim} (hp : p ∈ S.aggs) (hi : ignoreEntityFor (S.opts p) c false = false) (ho : Open S target e) (hc : c ∉ S.ignoreEnts)
    (hpath : (c, path) ∈ (deepBackwardEntities S.rels (S.rels.length + 1) e).getD [])
    {m : Option Int} (hm : Level S target M e m) {t : List DFeat} (ht : Matched S target M m c p (aggKeep e path) t) (hb : aggInput S e c path p st t = .ok st') :
    StepOk S target M st st' := by
  unfold aggInput at hb
  split at hb
  · cases hb
  · cases hb; exact .refl h
  · next hst =>
    split at hb
    · cases hb
    · next f hf =>
      split at hb
      · cases hb
      · next s1 hs1 =>
        split at hb
        · cases hb
        · next fs hfs =>
          have hty : typesOk S.L p t = true := by
            unfold mkAgg at hf
            split at hf
            · assumption
            · cases hf
          have hin : Inputs S target M e c p t := by
            obtain ⟨n, hn, rfl⟩ := hm
            exact ⟨ht.entity, ⟨n, hn, fun f hf => below_of_within (ht.below f hf)⟩, ht.valid, ht.distinct, ht.length, ht.nonempty, hty⟩
          have hf' : Built S target M f ∧ Whole S f := by
            unfold mkAgg at hf
            rw [if_pos hty] at hf
            cases hf
            exact ⟨.agg e c _ path p t hp hi ho ht.visited hc hpath ht.built hin ht.kept hst, .inr fun n => by simp [DFeat.kind]⟩
          have step1 := addNew_step h hf'.1 hf'.2 hs1
          refine step1.trans (addAll_step step1.ok (fun g hg => ?_) hb)
          unfold whereFeatures at hfs
          split at hfs
          · cases hfs; cases hg
          · next hcount =>
            split at hfs
            · cases hfs; cases hg
            · next hwp =>
              obtain ⟨w, hw, hx⟩ := mem_eachE hfs hg
              obtain ⟨hw1, hw2⟩ := List.mem_filter.mp hw
              have hw3 := (hL _).mem_iff.mp hw1
              unfold mkAgg at hx
              rw [if_pos hty] at hx
              cases hx
              cases hlk : st.clauses.lookup c with
              | none => rw [hlk] at hw3; cases hw3
              | some cs =>
                rw [hlk] at hw3
                have hcl := h.clauses _ (lookup_mem_pair hlk) w hw3
                obtain ⟨f0, x, v, hb0, hv, hin0⟩ := hcl
                refine ⟨.aggWhere e c _ path p t _ f0 x v hp hi ho ht.visited hc hpath ht.built hin ht.kept hst (by simpa using hcount) ?_ hb0.1 hv hin0 rfl hb0.2 ?_, .inr fun n => by simp [DFeat.kind]⟩
                · simp only [Bool.not_eq_true', Bool.not_eq_false] at hwp
                  obtain ⟨q, hq, hq'⟩ := List.any_eq_true.mp hwp
                  exact ⟨q, hq, by simpa using hq'⟩
                · intro b hb' heq
                  simp only [clauseOf, DFeat.bases, List.any_cons, List.any_nil, Bool.or_false, Bool.not_eq_true'] at hw2
                  have : (t.map DFeat.uname).contains f0.uname = true := by
                    simp only [List.contains_iff_mem, List.mem_map]
                    exact ⟨b, hb', heq⟩
                  rw [this] at hw2
                  cases hw2

theorem aggPrimStep_step (hL : ∀ l, (S.L.setOrder l).Perm l) {st st' : DState} (h : StateOk S target M st) {e c : String} {path : RelPath}
    {m : Option Int} (hm : Level S target M e m) {p : Prim} (hp : p ∈ S.aggs) (ho : Open S target e) (hc : c ∉ S.ignoreEnts)
    (hpath : (c, path) ∈ (deepBackwardEntities S.rels (S.rels.length + 1) e).getD [])
    (hb : aggPrimStep S e c path (lower1 m) st p = .ok st') : StepOk S target M st st' := by
  unfold aggPrimStep at hb
  split at hb
  · cases hb; exact .refl h
  · next hi =>
    refine foldE_inv (StepOk S target M st) (.refl h) (fun t ht s s' hs he => ?_) hb
    obtain ⟨_, s0, hs0, _, heq⟩ := mem_filterMatches ht
    rw [← heq rfl] at hs0
    exact hs.trans (aggInput_step hL hs.ok hp (by simpa using hi) ho hc hpath hm (matchingInputs_spec hL h hs0) he)

theorem buildAgg_step (hL : ∀ l, (S.L.setOrder l).Perm l) {st st' : DState} (h : StateOk S target M st) {e c : String} {path : RelPath}
    {m : Option Int} (hm : Level S target M e m) (ho : Open S target e) (hc : c ∉ S.ignoreEnts)
    (hpath : (c, path) ∈ (deepBackwardEntities S.rels (S.rels.length + 1) e).getD [])
    (hb : buildAgg S e c path m st = .ok st') : StepOk S target M st st' :=
  foldE_inv (StepOk S target M st) (.refl h) (fun _ hp _ _ hs he => hs.trans (aggPrimStep_step hL hs.ok hm hp ho hc hpath he)) hb

theorem aggAll_step (hL : ∀ l, (S.L.setOrder l).Perm l) {st st' : DState} (h : StateOk S target M st) {e : String} {path : RelPath}
    {m : Option Int} (hm : Level S target M e m) (ho : Open S target e) (hb : aggAll S e path m st = .ok st') : StepOk S target M st st' := by
  unfold aggAll at hb
  split at hb
  · cases hb
  · next l hl =>
    refine foldE_inv (StepOk S target M st) (.refl h) (fun x hx s s' hs he => ?_) hb
    split at he
    · next ha => exact hs.trans (buildAgg_step hL hs.ok hm ho (allowedVia_iff ha) (by rw [hl]; exact hx) he)
    · cases he; exact hs

theorem middleSteps_step (hL : ∀ l, (S.L.setOrder l).Perm l) {st st' : DState} (h : StateOk S target M st) {e : String} {path : RelPath}
    {m : Option Int} (hm : Level S target M e m) (ho : Open S target e) (hb : middleSteps S e path m st = .ok st') : StepOk S target M st st' := by
  unfold middleSteps at hb
  split at hb
  · cases hb
  · next s1 hs1 =>
    have h1 := aggAll_step hL h hm ho hs1
    exact h1.trans (buildTransform_step hL h1.ok hm hb)

theorem newClauses_spec {fs : List DFeat} {c : DFeat} (h : c ∈ newClauses S fs) :
    ∃ f ∈ fs, ∃ x v, varOf f = some x ∧ v ∈ interestingOf S x ∧ c = clauseOf S f v := by
  obtain ⟨f, hf, hc⟩ := List.mem_flatMap.mp (mem_of_dedupOn _ h)
  split at hc
  · cases hc
  · next x hx =>
    obtain ⟨v, hv, rfl⟩ := List.mem_map.mp hc
    exact ⟨f, hf, x, v, hx, hv, rfl⟩

/-- A visit: the invariant holds afterwards and the visited entities only grow. -/
structure VisitOk (S : Synth) (target : String) (M : Option Int) (st st' : DState) : Prop where
  ok : StateOk S target M st'
  grows : ∀ e ∈ st.feats.map Prod.fst, e ∈ st'.feats.map Prod.fst

theorem StepOk.visitOk {st st' : DState} (h : StepOk S target M st st') : VisitOk S target M st st' :=
  ⟨h.ok, fun e he => h.keys ▸ he⟩

theorem VisitOk.trans {a b c : DState} (h1 : VisitOk S target M a b) (h2 : VisitOk S target M b c) : VisitOk S target M a c :=
  ⟨h2.ok, fun e he => h2.grows e (h1.grows e he)⟩

theorem lastSteps_step (hL : ∀ l, (S.L.setOrder l).Perm l) {st st' : DState} (h : StateOk S target M st) {e : String} {path : RelPath}
    {m : Option Int} (hm : Level S target M e m) (ho : Open S target e) (hb : lastSteps S e path m st = .ok st') : VisitOk S target M st st' := by
  unfold lastSteps at hb
  split at hb
  · cases hb
  · next s1 hs1 =>
    have h1 := directAll_step h ho hm hs1
    split at hb
    · cases hb
    · next s2 hs2 =>
      have h2 := h1.trans (buildTransform_step hL h1.ok hm hs2)
      cases hb
      refine ⟨⟨h2.ok.keys, h2.ok.feats, fun q hq c hc => ?_⟩, fun x hx => h2.keys ▸ hx⟩
      simp only [buildClauses, List.mem_cons] at hq
      rcases hq with rfl | hq
      · obtain ⟨f, hf, x, v, hx, hv, rfl⟩ := newClauses_spec hc
        cases hl : s2.feats.lookup e with
        | none => simp [hl] at hf
        | some fs =>
          simp only [hl, Option.getD_some] at hf
          have hf2 := (h2.ok.feats _ (lookup_mem_pair hl)).2.2 f hf
          exact ⟨f, x, v, ⟨hf2.1, hf2.2.1⟩, hx, hv⟩
      · exact h2.ok.clauses q hq c hc

theorem find_ent {e : String} {d : DEnt} (h : S.ents.find? (fun d => d.id == e) = some d) : d ∈ S.ents ∧ d.id = e :=
  ⟨List.mem_of_find?_eq_some h, by simpa using List.find?_some h⟩

theorem visitAll_step {run : DState → String → RelPath → Option Int → Except DfsErr DState}
    (hrun : ∀ st st' e path m, StateOk S target M st → e ∉ st.feats.map Prod.fst → Open S target e → Level S target M e m →
      run st e path m = .ok st' → VisitOk S target M st st') {st st' : DState} (h : StateOk S target M st) {path : RelPath} {m : Option Int}
    {l : List (String × RelPath)} (hm : ∀ x ∈ l, Level S target M x.1 (lower1 m)) (hb : visitAll S run path m st l = .ok st') : VisitOk S target M st st' := by
  refine foldE_inv (VisitOk S target M st) ⟨h, fun _ he => he⟩ (fun x hx s s' hs he => ?_) hb
  split at he
  · cases he; exact hs
  · next hc =>
    simp only [Bool.or_eq_true, Bool.not_eq_true', not_or, Bool.not_eq_false] at hc
    refine hs.trans (hrun s s' x.1 (path ++ x.2) (lower1 m) hs.ok ?_ (.inr (allowedVia_iff hc.2)) (hm x hx) he)
    intro hmem
    apply hc.1
    obtain ⟨q, hq, hqx⟩ := List.mem_map.mp hmem
    exact List.any_eq_true.mpr ⟨q, hq, by simpa using hqx⟩

theorem level_backward {e : String} {m : Option Int} (hm : Level S target M e m) :
    ∀ x ∈ getBackwardEntities S.rels e, Level S target M x.1 (lower1 m) := by
  intro x hx
  obtain ⟨r, hr, rfl⟩ := List.mem_map.mp hx
  obtain ⟨h1, h2⟩ := List.mem_filter.mp hr
  exact hm.next fun n hn => .down r hn h1 (by simpa using h2)

theorem level_forward {e : String} {m : Option Int} (hm : Level S target M e m) :
    ∀ x ∈ getForwardEntities S.rels e, Level S target M x.1 (lower1 m) := by
  intro x hx
  obtain ⟨r, hr, rfl⟩ := List.mem_map.mp hx
  obtain ⟨h1, h2⟩ := List.mem_filter.mp hr
  exact hm.next fun n hn => .up r hn h1 (by simpa using h2)

theorem visit_step (hL : ∀ l, (S.L.setOrder l).Perm l) {run : DState → String → RelPath → Option Int → Except DfsErr DState}
    (hrun : ∀ st st' e path m, StateOk S target M st → e ∉ st.feats.map Prod.fst → Open S target e → Level S target M e m →
      run st e path m = .ok st' → VisitOk S target M st st') {st st' : DState} {e : String} {path : RelPath} {m : Option Int}
    (h : StateOk S target M st) (he : e ∉ st.feats.map Prod.fst) (ho : Open S target e) (hm : Level S target M e m)
    (hb : visit S run st e path m = .ok st') : VisitOk S target M st st' := by
  unfold visit at hb
  split at hb
  · cases hb; exact ⟨h, fun _ he => he⟩
  · next hex =>
    split at hb
    · cases hb
    · next d hd =>
      obtain ⟨hd1, hd2⟩ := find_ent hd
      have h0 : StateOk S target M { st with feats := (e, []) :: st.feats } := by
        refine ⟨by simpa using ⟨by simpa using he, h.keys⟩, fun q hq => ?_, h.clauses⟩
        rcases List.mem_cons.mp hq with rfl | hq
        · exact ⟨ho, .nil, by simp⟩
        · exact h.feats q hq
      split at hb
      · cases hb
      · next s1 hs1 =>
        have h1 := (addIdentity_step h0 hd1 (hd2 ▸ ho) (hd2 ▸ hm.reached hex) hs1).visitOk
        split at hb
        · cases hb
        · next s2 hs2 =>
          have h2 := h1.trans (visitAll_step hrun h1.ok (level_backward hm) hs2)
          split at hb
          · cases hb
          · next s3 hs3 =>
            have h3 := h2.trans (middleSteps_step hL h2.ok hm ho hs3).visitOk
            split at hb
            · cases hb
            · next s4 hs4 =>
              have h4 := h3.trans (visitAll_step hrun h3.ok (level_forward hm) hs4)
              have h5 := h4.trans (lastSteps_step hL h4.ok hm ho hb)
              exact ⟨h5.ok, fun x hx => h5.grows x (by simp at hx ⊢; exact .inr hx)⟩

theorem runDfs_step (hL : ∀ l, (S.L.setOrder l).Perm l) : ∀ (n : Nat) (st st' : DState) (e : String) (path : RelPath) (m : Option Int),
    StateOk S target M st → e ∉ st.feats.map Prod.fst → Open S target e → Level S target M e m → runDfs S n st e path m = .ok st' →
    VisitOk S target M st st'
  | 0, _, _, _, _, _, _, _, _, _, h => by cases h
  | n + 1, st, st', e, path, m, h, he, ho, hm, hb => visit_step hL (runDfs_step hL n) h he ho hm hb

theorem allFeatures_ok (hL : ∀ l, (S.L.setOrder l).Perm l) {st : DState} (h : allFeatures S target M = .ok st) : StateOk S target M st :=
  (runDfs_step hL _ _ _ _ _ _ ⟨by simp, by simp, by simp⟩ (by simp) (.inl rfl) ⟨0, .here, by cases M <;> simp⟩ h).ok

end
end FT
