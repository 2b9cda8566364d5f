import Verif.Lemmas.DfsCall
namespace FT
open FT.Spec

/-! ## Dicts -/

theorem lookup_setFor (d : List (String × List DFeat)) (e : String) (fs : List DFeat) (x : String) :
    (setFor d e fs).lookup x = if x = e then (d.lookup e).map fun _ => fs else d.lookup x := by
  induction d with
  | nil => simp [setFor]
  | cons p d ih =>
    obtain ⟨k, v⟩ := p
    have hs : setFor ((k, v) :: d) e fs = (if k = e then (e, fs) else (k, v)) :: setFor d e fs := rfl
    rw [hs]
    by_cases hk : k = e
    · subst hk
      rw [if_pos rfl, List.lookup_cons, List.lookup_cons, List.lookup_cons, ih]
      by_cases hx : x = k
      · subst hx; simp
      · have : (x == k) = false := by simpa using hx
        simp [hx, this]
    · rw [if_neg hk, List.lookup_cons, List.lookup_cons, List.lookup_cons, ih]
      by_cases hx : x = e
      · subst hx
        have : (x == k) = false := by simpa using fun h => hk h.symm
        simp [this]
      · simp [hx]

/-- What is added during a visit: with the names the code gives. -/
inductive Fresh (S : Synth) : DFeat → Prop
  | identity (d : DEnt) (v : DVar) : d ∈ S.ents → v ∈ d.vars → Fresh S (identityOf d v)
  | seed (f : DFeat) : f ∈ S.seeds → Fresh S f
  | trans (p : Prim) (e : String) (t : List DFeat) : p ∈ S.trans → Fresh S (.mk (.trans p) e (S.L.namer.trans p (t.map DFeat.name)) t [])
  | groupby (p : Prim) (e : String) (t : List DFeat) (g : DFeat) : p ∈ S.groupbys →
      Fresh S (.mk (.groupby p) e (S.L.namer.groupby p (t.map DFeat.name) g.name) (t ++ [g]) [])
  | agg (p : Prim) (e : String) (path : RelPath) (t w : List DFeat) : p ∈ S.aggs →
      Fresh S (.mk (.agg path p) e (S.L.namer.agg p path (t.map DFeat.name) (w.head?.map DFeat.name)) t w)
  | direct (r : Relationship) (f : DFeat) : Fresh S (mkDirect S r f)

/-- Once there, the feature stays. -/
def Keeps (S : Synth) (f : DFeat) : Prop := f.uname ∉ S.seeds.map DFeat.uname ∨ ∀ g, Fresh S g → g.uname = f.uname → g = f

/-- The features of an entity. -/
def Lists (st : DState) (e : String) (fs : List DFeat) : Prop := st.feats.lookup e = some fs

/-- A feature of that name is there. -/
def Present (st : DState) (e n : String) : Prop := ∃ fs, Lists st e fs ∧ ∃ g ∈ fs, g.uname = n

/-- Steps that only add features, of the kind `K`, to the entity `e`. -/
structure Adds (S : Synth) (e : String) (K : DFeat → Prop) (st st' : DState) : Prop where
  clauses : st'.clauses = st.clauses
  keys : st'.feats.map Prod.fst = st.feats.map Prod.fst
  other : ∀ x, x ≠ e → st'.feats.lookup x = st.feats.lookup x
  own : ∀ fs, Lists st e fs → ∃ fs', Lists st' e fs' ∧ (∀ f ∈ fs, Keeps S f → f ∈ fs') ∧ (∀ f ∈ fs, ∃ g ∈ fs', g.uname = f.uname) ∧
    ∀ f ∈ fs', f ∈ fs ∨ K f

section
variable {S : Synth} {e : String} {K : DFeat → Prop}

theorem Adds.refl (st : DState) : Adds S e K st st :=
  ⟨rfl, rfl, fun _ _ => rfl, fun fs h => ⟨fs, h, fun _ h _ => h, fun f hf => ⟨f, hf, rfl⟩, fun _ h => .inl h⟩⟩

theorem Adds.trans {a b c : DState} (h1 : Adds S e K a b) (h2 : Adds S e K b c) : Adds S e K a c := by
  refine ⟨h2.clauses.trans h1.clauses, h2.keys.trans h1.keys, fun x hx => (h2.other x hx).trans (h1.other x hx), fun fs hfs => ?_⟩
  obtain ⟨fs1, l1, k1, n1, m1⟩ := h1.own fs hfs
  obtain ⟨fs2, l2, k2, n2, m2⟩ := h2.own fs1 l1
  refine ⟨fs2, l2, fun f hf hk => k2 f (k1 f hf hk) hk, fun f hf => ?_, fun f hf => ?_⟩
  · obtain ⟨g, hg, hgf⟩ := n1 f hf
    obtain ⟨g', hg', hgf'⟩ := n2 g hg
    exact ⟨g', hg', hgf'.trans hgf⟩
  · rcases m2 f hf with h | h
    · exact m1 f h
    · exact .inr h

theorem Adds.mono {K' : DFeat → Prop} {a b : DState} (h : Adds S e K a b) (hk : ∀ f, K f → K' f) : Adds S e K' a b :=
  ⟨h.clauses, h.keys, h.other, fun fs hfs => by
    obtain ⟨fs', l, k, n, m⟩ := h.own fs hfs
    exact ⟨fs', l, k, n, fun f hf => (m f hf).imp id (hk f)⟩⟩

theorem Adds.present {a b : DState} (h : Adds S e K a b) {x n : String} (hp : Present a x n) : Present b x n := by
  obtain ⟨fs, hfs, g, hg, hgn⟩ := hp
  by_cases hx : x = e
  · subst hx
    obtain ⟨fs', l, _, nn, _⟩ := h.own fs hfs
    obtain ⟨g', hg', hgg⟩ := nn g hg
    exact ⟨fs', l, g', hg', hgg.trans hgn⟩
  · exact ⟨fs, (h.other x hx).trans hfs, g, hg, hgn⟩

theorem putFeature_keeps {fs : List DFeat} {f g : DFeat} (hg : g ∈ fs) : g ∈ putFeature fs f ∨ (g.uname = f.uname ∧ f ∈ putFeature fs f) := by
  unfold putFeature
  by_cases h : g.uname = f.uname
  · right
    refine ⟨h, ?_⟩
    rw [if_pos (any_uname_iff.mpr ⟨g, hg, h⟩)]
    exact List.mem_map.mpr ⟨g, hg, by simp [h]⟩
  · left
    split
    · exact List.mem_map.mpr ⟨g, hg, by simp [h]⟩
    · exact List.mem_append_left _ hg

theorem putFeature_self {fs : List DFeat} {f : DFeat} : f ∈ putFeature fs f := by
  unfold putFeature
  split
  · next h =>
    obtain ⟨g, hg, hgf⟩ := any_uname_iff.mp h
    exact List.mem_map.mpr ⟨g, hg, by simp [hgf]⟩
  · simp

/-- Adding a feature: it, or one of its name, is there afterwards. -/
theorem addNew_adds {st st' : DState} {f : DFeat} (hF : Fresh S f) (hK : K f) (he : f.entity = e) (h : addNew S st f = .ok st') :
    Adds S e K st st' ∧ Present st' e f.uname ∧ (¬Present st e f.uname → ∃ fs, Lists st' e fs ∧ f ∈ fs) := by
  subst he
  unfold addNew at h
  split at h
  · cases h
  · next fs hfs =>
    split at h
    · next hc =>
      cases h
      simp only [Bool.and_eq_true] at hc
      have hp : Present st f.entity f.uname := ⟨fs, hfs, any_uname_iff.mp hc.1⟩
      exact ⟨.refl _, hp, fun h => absurd hp h⟩
    · next hc =>
      cases h
      have hl : Lists ⟨setFor st.feats f.entity (putFeature fs f), st.clauses⟩ f.entity (putFeature fs f) := by
        show (setFor st.feats f.entity (putFeature fs f)).lookup f.entity = _
        rw [lookup_setFor, if_pos rfl, hfs]; rfl
      refine ⟨⟨rfl, setFor_keys _ _ _, fun x hx => ?_, fun fs0 hfs0 => ?_⟩, ⟨_, hl, f, putFeature_self, rfl⟩, fun _ => ⟨_, hl, putFeature_self⟩⟩
      · show (setFor st.feats f.entity (putFeature fs f)).lookup x = _
        rw [lookup_setFor, if_neg hx]
      · have : fs0 = fs := Option.some.inj (hfs0.symm.trans hfs)
        subst this
        refine ⟨_, hl, fun g hg hk => ?_, fun g hg => ?_, fun g hg => ?_⟩
        · rcases putFeature_keeps (f := f) hg with h | ⟨hn, h⟩
          · exact h
          · have : f = g := by
              rcases hk with hk | hk
              · exfalso
                apply hc
                simp only [Bool.and_eq_true, Bool.not_eq_true', ← Bool.not_eq_true]
                refine ⟨any_uname_iff.mpr ⟨g, hg, hn⟩, fun hs => hk ?_⟩
                obtain ⟨s, hs, hsn⟩ := any_uname_iff.mp hs
                rw [hn]
                exact List.mem_map.mpr ⟨s, hs, hsn⟩
              · exact hk f hF hn.symm
            exact this ▸ h
        · rcases putFeature_keeps (f := f) hg with h | ⟨hn, h⟩
          · exact ⟨g, h, rfl⟩
          · exact ⟨f, h, hn.symm⟩
        · rcases mem_putFeature hg with h | rfl
          · exact .inl h
          · exact .inr hK

theorem addAll_adds {l : List DFeat} : ∀ {st st' : DState}, (∀ f ∈ l, Fresh S f ∧ K f ∧ f.entity = e) → foldE (addNew S) st l = .ok st' →
    Adds S e K st st' ∧ ∀ f ∈ l, Present st' e f.uname := by
  induction l with
  | nil => intro st st' _ h; simp only [foldE] at h; cases h; exact ⟨.refl _, by simp⟩
  | cons f l ih =>
    intro st st' hl h
    simp only [foldE] at h
    cases h1 : addNew S st f with
    | error e => rw [h1] at h; cases h
    | ok s1 =>
      rw [h1] at h
      obtain ⟨a1, p1, _⟩ := addNew_adds (hl f List.mem_cons_self).1 (hl f List.mem_cons_self).2.1 (hl f List.mem_cons_self).2.2 h1
      obtain ⟨a2, p2⟩ := ih (fun g hg => hl g (List.mem_cons_of_mem _ hg)) h
      refine ⟨a1.trans a2, fun g hg => ?_⟩
      rcases List.mem_cons.mp hg with rfl | hg
      · exact a2.present p1
      · exact p2 g hg

theorem foldE_append {σ α ε : Type} {f : σ → α → Except ε σ} : ∀ {l1 l2 : List α} {s s' : σ}, foldE f s (l1 ++ l2) = .ok s' →
    ∃ s1, foldE f s l1 = .ok s1 ∧ foldE f s1 l2 = .ok s'
  | [], _, s, _, h => ⟨s, rfl, h⟩
  | a :: l1, l2, s, s', h => by
    simp only [List.cons_append, foldE] at h ⊢
    cases h1 : f s a with
    | error e => rw [h1] at h; cases h
    | ok s1 => rw [h1] at h; exact foldE_append h

/-! ## The steps of a visit -/

/-- Features that are not there before the transform features are made. -/
def Later (f : DFeat) : Prop := (∃ p, f.kind = .trans p) ∨ (∃ p, f.kind = .groupby p)

theorem gatherE_mem {α β ε : Type} {f : α → Except ε (List β)} : ∀ {l : List α} {r : List β}, gatherE f l = .ok r → ∀ a ∈ l, ∃ y, f a = .ok y ∧ ∀ x ∈ y, x ∈ r
  | [], _, _, a, ha => by cases ha
  | b :: l, r, h, a, ha => by
    simp only [gatherE] at h
    cases h1 : f b with
    | error e => rw [h1] at h; cases h
    | ok y =>
      rw [h1] at h
      cases h2 : gatherE f l with
      | error e => rw [h2] at h; cases h
      | ok z =>
        rw [h2] at h; cases h
        rcases List.mem_cons.mp ha with rfl | ha
        · exact ⟨y, h1, fun x hx => List.mem_append_left _ hx⟩
        · obtain ⟨w, hw, hwz⟩ := gatherE_mem h2 a ha
          exact ⟨w, hw, fun x hx => List.mem_append_right _ (hwz x hx)⟩

theorem eachE_mem {α : Type} {f : α → Except DfsErr DFeat} {l : List α} {r : List DFeat} (h : eachE f l = .ok r) {a : α} (ha : a ∈ l) :
    ∃ x, f a = .ok x ∧ x ∈ r := by
  obtain ⟨y, hy, hyr⟩ := gatherE_mem h a ha
  cases h1 : f a with
  | error e => rw [h1] at hy; cases hy
  | ok x =>
    rw [h1] at hy; cases hy
    exact ⟨x, rfl, hyr x (by simp)⟩

theorem mkTrans_ok {p : Prim} {t : List DFeat} {f : DFeat} (h : mkTrans S e p t = .ok f) :
    f = .mk (.trans p) e (S.L.namer.trans p (t.map DFeat.name)) t [] := by
  unfold mkTrans at h
  split at h
  · cases h; rfl
  · cases h

theorem mkGroupby_ok {p : Prim} {t : List DFeat} {g f : DFeat} (h : mkGroupby S e p t g = .ok f) :
    f = .mk (.groupby p) e (S.L.namer.groupby p (t.map DFeat.name) g.name) (t ++ [g]) [] := by
  unfold mkGroupby at h
  split at h
  · cases h; rfl
  · cases h

theorem mkAgg_ok {p : Prim} {path : RelPath} {t w : List DFeat} {f : DFeat} (h : mkAgg S e path p t w = .ok f) :
    f = .mk (.agg path p) e (S.L.namer.agg p path (t.map DFeat.name) (w.head?.map DFeat.name)) t w := by
  unfold mkAgg at h
  split at h
  · cases h; rfl
  · cases h

/-- The transform steps add transform and group-by features to the entity, one for every input. -/
theorem buildTransform_adds {m : Option Int} {req : Bool} {st st' : DState} (h : buildTransform S e m req st = .ok st') :
    Adds S e Later st st' ∧
    (∀ p ∈ S.trans, ignoreEntityFor (S.opts p) e false = false → ∀ t ∈ transInputs S st e (lower1 m) p req,
      Present st' e (e ++ ": " ++ S.L.namer.trans p (t.map DFeat.name))) ∧
    (∀ p ∈ S.groupbys, ignoreEntityFor (S.opts p) e true = false → ∀ t ∈ transInputs S st e (lower1 m) p false,
      (req = true → ∃ f ∈ t, f.isDirect = true) → ∀ g, [g] ∈ groupbyMatches S st e (lower1 m) p →
        Present st' e (e ++ ": " ++ S.L.namer.groupby p (t.map DFeat.name) g.name)) := by
  unfold buildTransform at h
  split at h
  · cases h
  · next a ha =>
    split at h
    · cases h
    · next b hb =>
      have hl : ∀ f ∈ a ++ b, Fresh S f ∧ Later f ∧ f.entity = e := by
        intro f hf
        rcases List.mem_append.mp hf with hf | hf
        · obtain ⟨p, hp, y, hy, hfy⟩ := mem_gatherE ha hf
          unfold transOf at hy
          split at hy
          · cases hy; cases hfy
          · obtain ⟨t, _, hx⟩ := mem_eachE hy hfy
            rw [mkTrans_ok hx]
            exact ⟨.trans p e t hp, .inl ⟨p, rfl⟩, rfl⟩
        · obtain ⟨p, hp, y, hy, hfy⟩ := mem_gatherE hb hf
          unfold groupbyOf at hy
          split at hy
          · cases hy; cases hfy
          · obtain ⟨t, _, z, hz, hfz⟩ := mem_gatherE hy hfy
            split at hz
            · cases hz; cases hfz
            · obtain ⟨g, hgm, w, hw, hfw⟩ := mem_gatherE hz hfz
              split at hw
              · next g =>
                cases hg : mkGroupby S e p t g with
                | error er => rw [hg] at hw; cases hw
                | ok x =>
                  rw [hg] at hw; cases hw
                  simp only [List.mem_singleton] at hfw
                  rw [hfw, mkGroupby_ok hg]
                  exact ⟨.groupby p e t g hp, .inr ⟨p, rfl⟩, rfl⟩
              · cases hw; cases hfw
      obtain ⟨h1, h2⟩ := addAll_adds hl h
      refine ⟨h1, fun p hp hi t ht => ?_, fun p hp hi t ht hd g hg => ?_⟩
      · obtain ⟨y, hy, hya⟩ := gatherE_mem ha p hp
        unfold transOf at hy
        rw [if_neg (by simp [hi])] at hy
        obtain ⟨x, hx, hxy⟩ := eachE_mem hy ht
        have := h2 x (List.mem_append_left _ (hya x hxy))
        rw [mkTrans_ok hx] at this
        exact this
      · obtain ⟨y, hy, hyb⟩ := gatherE_mem hb p hp
        unfold groupbyOf at hy
        rw [if_neg (by simp [hi])] at hy
        obtain ⟨z, hz, hzy⟩ := gatherE_mem hy t ht
        have hc : ¬(req && !t.any DFeat.isDirect) = true := by
          simp only [Bool.and_eq_true, Bool.not_eq_true', not_and, Bool.not_eq_false]
          intro hr
          exact List.any_eq_true.mpr (hd hr)
        rw [if_neg hc] at hz
        obtain ⟨w, hw, hwz⟩ := gatherE_mem hz [g] hg
        simp only at hw
        cases hgk : mkGroupby S e p t g with
        | error er => rw [hgk] at hw; cases hw
        | ok x =>
          rw [hgk] at hw; cases hw
          have := h2 x (List.mem_append_right _ (hyb x (hzy x (hwz x (by simp)))))
          rw [mkGroupby_ok hgk] at this
          exact this

def IsDirect (f : DFeat) : Prop := ∃ r, f.kind = .direct r

theorem buildForward_adds {r : Relationship} (hr : r.childE = e) {m : Option Int} {st st' : DState} (h : buildForward S r m st = .ok st') :
    Adds S e IsDirect st st' ∧ ∀ f ∈ featuresByType S st r.parentE m none, inRelPath [(true, r)] f = false →
      Present st' e (e ++ ": " ++ S.L.namer.direct r f.name) := by
  obtain ⟨h1, h2⟩ := addAll_adds (K := IsDirect) (e := e) (fun f hf => by
    obtain ⟨g, _, rfl⟩ := List.mem_map.mp hf
    exact ⟨.direct r g, ⟨r, rfl⟩, hr⟩) h
  refine ⟨h1, fun f hf hp => ?_⟩
  have := h2 (mkDirect S r f) (List.mem_map.mpr ⟨f, List.mem_filter.mpr ⟨hf, by simp [hp]⟩, rfl⟩)
  rw [show (mkDirect S r f).uname = e ++ ": " ++ S.L.namer.direct r f.name by rw [← hr]; rfl] at this
  exact this

/-- A loop of steps that add to `e`: the state in which a round starts. -/
theorem foldE_adds {α : Type} {step : DState → α → Except DfsErr DState} : ∀ {l : List α} {st st' : DState},
    (∀ a ∈ l, ∀ s s', step s a = .ok s' → Adds S e K s s') → foldE step st l = .ok st' →
    Adds S e K st st' ∧ ∀ a ∈ l, ∃ s s', Adds S e K st s ∧ step s a = .ok s' ∧ Adds S e K s' st'
  | [], st, st', _, h => by simp only [foldE] at h; cases h; exact ⟨.refl _, by simp⟩
  | a :: l, st, st', hs, h => by
    simp only [foldE] at h
    cases h1 : step st a with
    | error er => rw [h1] at h; cases h
    | ok s1 =>
      rw [h1] at h
      have a1 := hs a List.mem_cons_self st s1 h1
      obtain ⟨a2, a3⟩ := foldE_adds (fun b hb => hs b (List.mem_cons_of_mem _ hb)) h
      refine ⟨a1.trans a2, fun b hb => ?_⟩
      rcases List.mem_cons.mp hb with rfl | hb
      · exact ⟨st, s1, .refl _, h1, a2⟩
      · obtain ⟨s, s', x, y, z⟩ := a3 b hb
        exact ⟨s, s', a1.trans x, y, z⟩

theorem featuresByType_congr {st st' : DState} {x : String} (h : st'.feats.lookup x = st.feats.lookup x) (m : Option Int)
    (types : Option (List String)) : featuresByType S st' x m types = featuresByType S st x m types := by
  unfold featuresByType; rw [h]

/-- The step for direct features. -/
theorem directAll_adds {path : RelPath} {m : Option Int} {st st' : DState} (h : directAll S e path m st = .ok st') :
    Adds S e IsDirect st st' ∧ ∀ r ∈ S.rels, r.childE = e → r.parentE ≠ e → allowedVia S path (r.parentE, [(true, r)]) = true →
      ∀ f ∈ featuresByType S st r.parentE m none, inRelPath [(true, r)] f = false →
        Present st' e (e ++ ": " ++ S.L.namer.direct r f.name) := by
  have hstep : ∀ r ∈ getForwardRelationships S.rels e, ∀ s s', (if allowedVia S path (r.parentE, [(true, r)]) then buildForward S r m s else .ok s) = .ok s' →
      Adds S e IsDirect s s' := by
    intro r hr s s' hs
    have hre : r.childE = e := by simpa using (List.mem_filter.mp hr).2
    split at hs
    · exact (buildForward_adds hre hs).1
    · cases hs; exact .refl _
  obtain ⟨h1, h2⟩ := foldE_adds hstep h
  refine ⟨h1, fun r hr hre hne ha f hf hp => ?_⟩
  obtain ⟨s, s', x, y, z⟩ := h2 r (List.mem_filter.mpr ⟨hr, by simp [hre]⟩)
  rw [if_pos ha] at y
  refine z.present ((buildForward_adds hre y).2 f ?_ hp)
  rw [featuresByType_congr (x.other _ hne)]
  exact hf

def IsAggF (f : DFeat) : Prop := ∃ path p, f.kind = .agg path p

theorem whereFeatures_mem {st : DState} {c : String} {path : RelPath} {p : Prim} {t : List DFeat} {fs : List DFeat}
    (h : whereFeatures S st e c path p t = .ok fs) : ∀ f ∈ fs, ∃ w, f = .mk (.agg path p) e (S.L.namer.agg p path (t.map DFeat.name) (some w.name)) t [w] := by
  intro f hf
  unfold whereFeatures at h
  split at h
  · cases h; cases hf
  · split at h
    · cases h; cases hf
    · obtain ⟨w, _, hx⟩ := mem_eachE h hf
      exact ⟨w, mkAgg_ok hx⟩

theorem aggInput_adds {c : String} {path : RelPath} {p : Prim} (hp : p ∈ S.aggs) {st st' : DState} {t : List DFeat}
    (h : aggInput S e c path p st t = .ok st') :
    Adds S e IsAggF st st' ∧ (∀ er, stackOk p t ≠ .error er) ∧ (stackOk p t = .ok true → Present st' e (e ++ ": " ++ S.L.namer.agg p path (t.map DFeat.name) none) ∧
      ((whereCount t : Int) < S.whereLimit → (∃ q ∈ S.wheres, q.cls ∈ p.supers) →
        ∀ w ∈ S.L.setOrder ((st.clauses.lookup c).getD []), (∀ b ∈ w.bases, b.uname ∉ t.map DFeat.uname) →
          Present st' e (e ++ ": " ++ S.L.namer.agg p path (t.map DFeat.name) (some w.name)))) := by
  unfold aggInput at h
  split at h
  · cases h
  · next hs => cases h; exact ⟨.refl _, fun er => by rw [hs]; simp, fun hst => by rw [hs] at hst; cases hst⟩
  · next hs =>
    split at h
    · cases h
    · next f hf =>
      split at h
      · cases h
      · next s1 hs1 =>
        split at h
        · cases h
        · next fs hfs =>
          have hfe := mkAgg_ok hf
          obtain ⟨a1, p1, _⟩ := addNew_adds (e := e) (K := IsAggF) (hfe ▸ Fresh.agg p e path t [] hp) ⟨path, p, by rw [hfe]; rfl⟩ (by rw [hfe]; rfl) hs1
          obtain ⟨a2, p2⟩ := addAll_adds (e := e) (K := IsAggF) (fun g hg => by
            obtain ⟨w, rfl⟩ := whereFeatures_mem hfs g hg
            exact ⟨Fresh.agg p e path t [w] hp, ⟨path, p, rfl⟩, rfl⟩) h
          refine ⟨a1.trans a2, fun er => by rw [hs]; simp, fun _ => ⟨a2.present ?_, fun hw hq w hwm hb => ?_⟩⟩
          · rw [hfe] at p1; exact p1
          · unfold whereFeatures at hfs
            rw [if_neg (by omega), if_neg (by
              simp only [Bool.not_eq_true', Bool.not_eq_false, List.any_eq_true, List.contains_iff_mem]
              exact hq)] at hfs
            obtain ⟨x, hx, hxf⟩ := eachE_mem hfs (a := w) (List.mem_filter.mpr ⟨hwm, by
              simp only [Bool.not_eq_true', ← Bool.not_eq_true, List.any_eq_true, List.contains_iff_mem, not_exists, not_and]
              exact hb⟩)
            have := p2 x hxf
            rw [mkAgg_ok hx] at this
            exact this

/-- The inputs of an aggregation primitive. -/
def aggInputs (S : Synth) (st : DState) (parent child : String) (path : RelPath) (m : Option Int) (p : Prim) : List (List DFeat) :=
  filterMatches S.L.sub (S.opts p) false false (matchingInputs S st child m p false (aggKeep parent path))

theorem aggInputs_congr {st st' : DState} {c : String} (h : st'.feats.lookup c = st.feats.lookup c) (path : RelPath) (m : Option Int) (p : Prim) :
    aggInputs S st' e c path m p = aggInputs S st e c path m p := by
  unfold aggInputs matchingInputs
  rw [featuresByType_congr h]

/-- What the aggregation step adds, for the input `t`. -/
def AggAdded (S : Synth) (st st' : DState) (e c : String) (path : RelPath) (p : Prim) (t : List DFeat) : Prop :=
  (∀ er, stackOk p t ≠ .error er) ∧ (stackOk p t = .ok true → Present st' e (e ++ ": " ++ S.L.namer.agg p path (t.map DFeat.name) none) ∧
      ((whereCount t : Int) < S.whereLimit → (∃ q ∈ S.wheres, q.cls ∈ p.supers) →
        ∀ w ∈ S.L.setOrder ((st.clauses.lookup c).getD []), (∀ b ∈ w.bases, b.uname ∉ t.map DFeat.uname) →
          Present st' e (e ++ ": " ++ S.L.namer.agg p path (t.map DFeat.name) (some w.name))))

theorem AggAdded.later {st s st' s' : DState} {c : String} {path : RelPath} {p : Prim} {t : List DFeat} (h : AggAdded S s s' e c path p t)
    (hc : s.clauses = st.clauses) (ha : Adds S e K s' st') : AggAdded S st st' e c path p t :=
  ⟨h.1, fun hs => ⟨ha.present (h.2 hs).1, fun h1 h2 w hw hb => ha.present ((h.2 hs).2 h1 h2 w (by rw [hc]; exact hw) hb)⟩⟩

theorem buildAgg_adds {c : String} (hce : c ≠ e) {path : RelPath} {m : Option Int} {st st' : DState}
    (h : buildAgg S e c path m st = .ok st') :
    Adds S e IsAggF st st' ∧ ∀ p ∈ S.aggs, ignoreEntityFor (S.opts p) c false = false →
      ∀ t ∈ aggInputs S st e c path (lower1 m) p, AggAdded S st st' e c path p t := by
  have hstep : ∀ p ∈ S.aggs, ∀ s s', aggPrimStep S e c path (lower1 m) s p = .ok s' →
      Adds S e IsAggF s s' ∧ (ignoreEntityFor (S.opts p) c false = false → ∀ t ∈ aggInputs S s e c path (lower1 m) p, AggAdded S s s' e c path p t) := by
    intro p hp s s' hs
    unfold aggPrimStep at hs
    split at hs
    · next hi => cases hs; exact ⟨.refl _, fun hi' => by rw [hi] at hi'; cases hi'⟩
    · obtain ⟨h1, h2⟩ := foldE_adds (fun t _ a b hab => (aggInput_adds hp hab).1) hs
      refine ⟨h1, fun _ t ht => ?_⟩
      obtain ⟨a, b, x, y, z⟩ := h2 t ht
      obtain ⟨_, y2, y3⟩ := aggInput_adds hp y
      exact AggAdded.later ⟨y2, y3⟩ x.clauses z
  obtain ⟨h1, h2⟩ := foldE_adds (fun p hp s s' hs => (hstep p hp s s' hs).1) h
  refine ⟨h1, fun p hp hi t ht => ?_⟩
  obtain ⟨s, s', x, y, z⟩ := h2 p hp
  exact ((hstep p hp s s' y).2 hi t (by rw [aggInputs_congr (x.other c hce)]; exact ht)).later x.clauses z

theorem aggAll_adds {path : RelPath} {m : Option Int} {st st' : DState}
    (h : aggAll S e path m st = .ok st') :
    ∃ l, deepBackwardEntities S.rels (S.rels.length + 1) e = some l ∧ ((∀ x ∈ l, x.1 ≠ e) → Adds S e IsAggF st st' ∧
      ∀ x ∈ l, allowedVia S path x = true → ∀ p ∈ S.aggs, ignoreEntityFor (S.opts p) x.1 false = false →
        ∀ t ∈ aggInputs S st e x.1 x.2 (lower1 m) p, AggAdded S st st' e x.1 x.2 p t) := by
  unfold aggAll at h
  split at h
  · cases h
  · next l hl =>
    refine ⟨l, hl, fun hne => ?_⟩
    obtain ⟨h1, h2⟩ := foldE_adds (K := IsAggF) (e := e) (S := S) (fun x hx s s' hs => by
      split at hs
      · exact (buildAgg_adds (hne x hx) hs).1
      · cases hs; exact .refl _) h
    refine ⟨h1, fun x hx ha p hp hi t ht => ?_⟩
    obtain ⟨s, s', u, v, w⟩ := h2 x hx
    rw [if_pos ha] at v
    exact ((buildAgg_adds (hne x hx) v).2 p hp hi t (by rw [aggInputs_congr (u.other _ (hne x hx))]; exact ht)).later u.clauses w

end
end FT
