import Verif.Lemmas.DfsTerm
import Verif.Model.DfsRun
namespace FT
open FT.Spec

/-! ## Depth -/

theorem depthL_le {stop : List String} {l : List DFeat} {k : Nat} (h : ∀ f ∈ l, f.depth stop ≤ k) : DFeat.depthL stop l ≤ k := by
  induction l with
  | nil => simp [DFeat.depthL]
  | cons f l ih =>
    simp only [DFeat.depthL]
    exact Nat.max_le.mpr ⟨h f List.mem_cons_self, ih fun g hg => h g (List.mem_cons_of_mem _ hg)⟩

theorem le_depthL {stop : List String} {l : List DFeat} {f : DFeat} (h : f ∈ l) : f.depth stop ≤ DFeat.depthL stop l := by
  induction l with
  | nil => cases h
  | cons g l ih =>
    simp only [DFeat.depthL]
    rcases List.mem_cons.mp h with rfl | h
    · exact Nat.le_max_left _ _
    · exact Nat.le_trans (ih h) (Nat.le_max_right _ _)

theorem depth_unfold (stop : List String) (f : DFeat) : f.depth stop =
    if f.isIdentity then 0 else if stop.contains f.uname then 0 else max (DFeat.depthL stop f.bases) (DFeat.depthL stop f.wh) + 1 := by
  cases f; rfl

theorem depth_le_succ {stop : List String} {f : DFeat} {k : Nat} (h : ∀ d ∈ f.bases ++ f.wh, d.depth stop ≤ k) : f.depth stop ≤ k + 1 := by
  rw [depth_unfold]
  split
  · omega
  · split
    · omega
    · have h1 := depthL_le (l := f.bases) fun d hd => h d (List.mem_append_left _ hd)
      have h2 := depthL_le (l := f.wh) fun d hd => h d (List.mem_append_right _ hd)
      have := Nat.max_le.mpr ⟨h1, h2⟩
      omega

theorem isIdentity_iff {f : DFeat} : f.isIdentity = true ↔ ∃ v t, f.kind = .identity v t := by
  unfold DFeat.isIdentity
  split
  · next h => simp [h]
  · next h =>
    simp only [Bool.false_eq_true, false_iff]
    rintro ⟨v, t, h'⟩
    exact h v t h'

theorem depChain_le {stop : List String} {f : DFeat} {n : Nat} (h : DepChain stop f n) : n ≤ f.depth stop := by
  induction h with
  | nil => omega
  | @cons f d n h1 h2 h3 _ ih =>
    rw [depth_unfold, if_neg (by rw [isIdentity_iff]; rintro ⟨v, t, h⟩; exact h1 v t h), if_neg (by simpa using h2)]
    rcases List.mem_append.mp h3 with h | h
    · have := le_depthL (stop := stop) h; omega
    · have := le_depthL (stop := stop) h; omega

theorem depChain_shorter {stop : List String} : ∀ {n m : Nat} {f : DFeat}, DepChain stop f n → m ≤ n → DepChain stop f m
  | _, 0, f, _, _ => .nil f
  | n + 1, m + 1, f, h, hm => by
    cases h with
    | cons h1 h2 h3 h4 => exact .cons h1 h2 h3 (depChain_shorter h4 (by omega))

theorem exists_depthL {stop : List String} {l : List DFeat} (h : l ≠ []) : ∃ f ∈ l, f.depth stop = DFeat.depthL stop l := by
  induction l with
  | nil => exact absurd rfl h
  | cons f l ih =>
    simp only [DFeat.depthL]
    by_cases hl : l = []
    · subst hl; exact ⟨f, List.mem_cons_self, by simp [DFeat.depthL]⟩
    · obtain ⟨g, hg, he⟩ := ih hl
      rcases Nat.le_total (f.depth stop) (DFeat.depthL stop l) with h1 | h1
      · exact ⟨g, List.mem_cons_of_mem _ hg, by rw [he, Nat.max_eq_right h1]⟩
      · exact ⟨f, List.mem_cons_self, by rw [Nat.max_eq_left h1]⟩

theorem exists_depth_dep {stop : List String} {f : DFeat} (h : f.bases ≠ []) :
    ∃ d ∈ f.bases ++ f.wh, d.depth stop = max (DFeat.depthL stop f.bases) (DFeat.depthL stop f.wh) := by
  rcases Nat.le_total (DFeat.depthL stop f.bases) (DFeat.depthL stop f.wh) with h1 | h1
  · by_cases hw : f.wh = []
    · obtain ⟨d, hd, he⟩ := exists_depthL (stop := stop) h
      refine ⟨d, List.mem_append_left _ hd, ?_⟩
      rw [hw] at h1
      simp only [DFeat.depthL] at h1
      rw [he, hw]
      simp [DFeat.depthL]
    · obtain ⟨d, hd, he⟩ := exists_depthL (stop := stop) hw
      exact ⟨d, List.mem_append_right _ hd, by rw [he, Nat.max_eq_right h1]⟩
  · obtain ⟨d, hd, he⟩ := exists_depthL (stop := stop) h
    exact ⟨d, List.mem_append_left _ hd, by rw [he, Nat.max_eq_left h1]⟩

theorem Spec.Proper.deps {f : DFeat} (h : Proper f) : ∀ d ∈ f.bases ++ f.wh, Proper d := by
  cases h <;> simp_all [DFeat.bases, DFeat.wh]
  case agg bs _ _ ws _ h1 h2 h3 => 
    intro d hd
    rcases hd with hd | hd
    · exact h1 d hd
    · exact h3 d hd

theorem Spec.Proper.bases_ne {f : DFeat} (h : Proper f) (hi : ¬f.isIdentity = true) : f.bases ≠ [] := by
  cases h <;> simp_all [DFeat.bases, DFeat.isIdentity, DFeat.kind]

theorem depth_chain {stop : List String} : ∀ (n : Nat) {f : DFeat}, f.depth stop = n → Proper f → DepChain stop f n
  | 0, f, _, _ => .nil f
  | n + 1, f, h, hp => by
    rw [depth_unfold] at h
    split at h
    · cases h
    · next hi =>
      split at h
      · cases h
      · next hs =>
        obtain ⟨d, hd, he⟩ := exists_depth_dep (stop := stop) (hp.bases_ne hi)
        exact .cons (fun v t hk => hi (isIdentity_iff.mpr ⟨v, t, hk⟩)) (by simpa using hs) hd (depth_chain n (by omega) (hp.deps d hd))

/-! ## Parts of built features -/

section
variable {S : Synth} {target : String} {M : Option Int}

theorem built_proper (hs : ∀ f ∈ S.seeds, Proper f) {f : DFeat} (h : Built S target M f) : Proper f := by
  induction h with
  | identity => exact .identity _ _ _ _
  | seed f hf => exact hs f hf
  | slice f i _ _ _ ih => exact .slice i _ _ ih
  | trans e n p t _ _ _ _ hin _ _ ih => exact .trans p e n hin.nonempty ih
  | groupby e n p t g _ _ _ _ _ _ _ _ _ _ _ _ _ _ _ ih1 ih2 =>
    refine .groupby p e n (by simp) fun b hb => ?_
    rcases List.mem_append.mp hb with hb | hb
    · exact ih1 b hb
    · simp only [List.mem_singleton] at hb; exact hb ▸ ih2
  | agg e c n path p t _ _ _ _ _ _ _ hin _ _ ih => exact .agg path p e n hin.nonempty ih (by simp) (by simp)
  | aggWhere e c n path p t w f x v _ _ _ _ _ _ _ hin _ _ _ _ _ _ _ hw _ _ ih1 ih2 =>
    refine .agg path p e n hin.nonempty ih1 (by simp) fun b hb => ?_
    simp only [List.mem_singleton] at hb
    rw [hb, hw]
    exact .trans _ _ _ (by simp) (by simpa using ih2)
  | direct r f _ _ _ _ _ _ _ _ ih => exact .direct r _ _ ih

/-- Built features and conditions. -/
def Part (S : Synth) (target : String) (M : Option Int) (g : DFeat) : Prop := Built S target M g ∨ Clause S (Built S target M) g

theorem part_dep {f d : DFeat} (h : Part S target M f) (hs : f ∉ S.seeds) (hd : d ∈ f.bases ++ f.wh) : Part S target M d := by
  rcases h with h | h
  · cases h with
    | identity => simp [identityOf, DFeat.bases, DFeat.wh] at hd
    | seed _ hf => exact absurd hf hs
    | slice f i hf => simp [sliceOf, DFeat.bases, DFeat.wh] at hd; exact hd ▸ .inl hf
    | trans e n p t _ _ _ hb => simp [DFeat.bases, DFeat.wh] at hd; exact .inl (hb d hd)
    | groupby e n p t g _ _ _ hb hg =>
      simp [DFeat.bases, DFeat.wh] at hd
      rcases hd with hd | hd
      · exact .inl (hb d hd)
      · exact hd ▸ .inl hg
    | agg e c n path p t _ _ _ _ _ _ hb => simp [DFeat.bases, DFeat.wh] at hd; exact .inl (hb d hd)
    | aggWhere e c n path p t w f x v _ _ _ _ _ _ hb _ _ _ _ _ hf hx hv hw =>
      simp [DFeat.bases, DFeat.wh] at hd
      rcases hd with hd | hd
      · exact .inl (hb d hd)
      · rw [hd, hw]; exact .inr (.mk f x v hf hx hv)
    | direct r f _ hf => simp [mkDirect, DFeat.bases, DFeat.wh] at hd; exact hd ▸ .inl hf
  · obtain ⟨f, x, v, hf, _, _⟩ := h
    simp [clauseOf, DFeat.bases, DFeat.wh] at hd
    exact hd ▸ .inl hf

theorem part_uses {f g : DFeat} (hu : DepUses S.seeds f g) (h : Part S target M f) : Part S target M g ∧ g ∉ S.seeds := by
  induction hu with
  | self hs => exact ⟨h, hs⟩
  | dep hs hd _ ih => exact ih (part_dep h hs hd)

theorem built_open {f : DFeat} (h : Built S target M f) : Open S target f.entity := by
  induction h with
  | identity _ _ _ _ _ ho => exact ho
  | seed _ _ ho => exact ho
  | slice _ _ _ _ _ ih => exact ih
  | trans _ _ _ _ _ _ ho => exact ho
  | groupby _ _ _ _ _ _ _ ho => exact ho
  | agg _ _ _ _ _ _ _ _ ho => exact ho
  | aggWhere _ _ _ _ _ _ _ _ _ _ _ _ ho => exact ho
  | direct _ _ _ _ _ _ ho => exact ho

theorem part_open {f : DFeat} (h : Part S target M f) : Open S target f.entity := by
  rcases h with h | h
  · exact built_open h
  · obtain ⟨f, x, v, hf, _, _⟩ := h
    exact (built_open hf : Open S target f.entity)

/-! ## Where chains -/

theorem varOf_noWhere {f : DFeat} {x : String × String} (hp : Proper f) (h : varOf f = some x) : ∀ {n : Nat}, WhereChain f n → n = 0 := by
  induction hp generalizing x with
  | identity v t e n =>
    intro n hn
    cases hn with
    | nil => rfl
    | skip hd => simp [DFeat.bases, DFeat.wh] at hd
    | hit hw => obtain ⟨⟨_, _, h⟩, _⟩ := hw; simp [DFeat.kind] at h
  | direct r e n hb ih =>
    intro n hn
    cases hn with
    | nil => rfl
    | skip hd hc =>
      simp [DFeat.bases, DFeat.wh] at hd
      subst hd
      exact ih (by simpa [varOf] using h) hc
    | hit hw => obtain ⟨⟨_, _, h⟩, _⟩ := hw; simp [DFeat.kind] at h
  | slice => simp [varOf] at h
  | trans => simp [varOf] at h
  | groupby => simp [varOf] at h
  | agg => simp [varOf] at h

/-- Is it an aggregation with a condition? -/
def whereB (g : DFeat) : Bool := g.isAgg && !g.wh.isEmpty

theorem whereB_iff {g : DFeat} : whereB g = true ↔ IsWhere g := by
  unfold whereB IsWhere DFeat.isAgg
  rw [Bool.and_eq_true]
  constructor
  · rintro ⟨h1, h2⟩
    refine ⟨?_, by simpa using h2⟩
    split at h1
    · next path p h => exact ⟨path, p, h⟩
    · cases h1
  · rintro ⟨⟨path, p, h⟩, h2⟩
    rw [h]
    exact ⟨rfl, by simpa using h2⟩

theorem countP_deepDepsL {P : DFeat → Bool} {l : List DFeat} {d : DFeat} (h : d ∈ l) :
    (d.deepDeps).countP P ≤ (DFeat.deepDepsL l).countP P := by
  induction l with
  | nil => cases h
  | cons a l ih =>
    simp only [DFeat.deepDepsL, List.countP_append]
    rcases List.mem_cons.mp h with rfl | h
    · omega
    · have := ih h; omega

theorem countP_cons_le {P : DFeat → Bool} {l : List DFeat} {d : DFeat} (h : d ∈ l) : (if P d then 1 else 0) ≤ l.countP P := by
  split
  · next hp => exact List.countP_pos_iff.mpr ⟨d, h, hp⟩
  · omega

theorem count_dep {P : DFeat → Bool} {f d : DFeat} (h : d ∈ f.bases ++ f.wh) :
    (d :: d.deepDeps).countP P ≤ (f.deepDeps).countP P := by
  obtain ⟨k, e, n, bs, ws⟩ := f
  simp only [DFeat.bases, DFeat.wh] at h
  simp only [DFeat.deepDeps, List.countP_append, List.countP_cons]
  have h1 := countP_cons_le (P := P) h
  rw [List.countP_append] at h1
  rcases List.mem_append.mp h with h | h
  · have := countP_deepDepsL (P := P) h; omega
  · have := countP_deepDepsL (P := P) h; omega

theorem whereChain_count {f : DFeat} {n : Nat} (h : WhereChain f n) : n ≤ (f :: f.deepDeps).countP whereB := by
  induction h with
  | nil => omega
  | skip hd _ ih => have := count_dep (P := whereB) hd; simp only [List.countP_cons] at *; omega
  | hit hw hd _ ih =>
    have := count_dep (P := whereB) hd
    simp only [List.countP_cons] at *
    rw [if_pos (whereB_iff.mpr hw)]
    omega

theorem whereCount_ge {t : List DFeat} {f : DFeat} (hf : f ∈ t) {n : Nat} (h : WhereChain f n) : n ≤ whereCount t := by
  refine Nat.le_trans (whereChain_count h) ?_
  unfold whereCount
  clear h n
  induction t with
  | nil => cases hf
  | cons g t ih =>
    rw [List.flatMap_cons, List.length_append]
    rcases List.mem_cons.mp hf with rfl | hf
    · have : (f :: f.deepDeps).countP whereB = ((f :: f.deepDeps).filter fun g => g.isAgg && !g.wh.isEmpty).length := List.countP_eq_length_filter
      omega
    · have := ih hf
      omega

theorem built_whereChain (hs : ∀ f ∈ S.seeds, Proper f) (hw : ∀ f ∈ S.seeds, ∀ n, WhereChain f n → (n : Int) ≤ max S.whereLimit 0) {f : DFeat}
    (h : Built S target M f) : ∀ n, WhereChain f n → (n : Int) ≤ max S.whereLimit 0 := by
  have notWhere : ∀ {k : DKind} {e n : String} {bs ws : List DFeat}, (∀ path p, k ≠ .agg path p) ∨ ws = [] →
      (∀ d ∈ bs ++ ws, ∀ n, WhereChain d n → (n : Int) ≤ max S.whereLimit 0) →
      ∀ m, WhereChain (.mk k e n bs ws) m → (m : Int) ≤ max S.whereLimit 0 := by
    intro k e n bs ws hk hd m hm
    cases hm with
    | nil => omega
    | skip hd' hc => exact hd _ hd' _ hc
    | hit hw' =>
      obtain ⟨⟨path, p, h1⟩, h2⟩ := hw'
      rcases hk with hk | hk
      · exact absurd h1 (hk path p)
      · exact absurd hk h2
  induction h with
  | identity => exact notWhere (.inr rfl) (by simp)
  | seed f hf => exact hw f hf
  | slice f i _ _ _ ih => exact notWhere (.inr rfl) (by simpa using ih)
  | trans e n p t _ _ _ _ hin _ _ ih => exact notWhere (.inr rfl) (by simpa using ih)
  | groupby e n p t g _ _ _ _ _ _ _ _ _ _ _ _ _ _ _ ih1 ih2 =>
    refine notWhere (.inr rfl) fun d hd => ?_
    simp only [List.append_nil, List.mem_append, List.mem_singleton] at hd
    rcases hd with hd | rfl
    · exact ih1 d hd
    · exact ih2
  | agg e c n path p t _ _ _ _ _ _ _ hin _ _ ih => exact notWhere (.inr rfl) (by simpa using ih)
  | aggWhere e c n path p t w f x v _ _ _ _ _ _ _ _ _ _ hcount _ hf hx _ hw' _ _ ih1 _ =>
    have hclause : ∀ m, WhereChain w m → m = 0 := by
      intro m hm
      rw [hw'] at hm
      cases hm with
      | nil => rfl
      | skip hd hc =>
        simp [clauseOf, DFeat.bases, DFeat.wh] at hd
        subst hd
        exact varOf_noWhere (built_proper hs hf) hx hc
      | hit h1 => obtain ⟨⟨_, _, h⟩, _⟩ := h1; simp [clauseOf, DFeat.kind] at h
    intro m hm
    cases hm with
    | nil => omega
    | skip hd hc =>
      simp only [DFeat.bases, DFeat.wh, List.mem_append, List.mem_singleton] at hd
      rcases hd with hd | rfl
      · exact ih1 _ hd _ hc
      · rw [hclause _ hc]; omega
    | hit _ hd hc =>
      simp only [DFeat.bases, DFeat.wh, List.mem_append, List.mem_singleton] at hd
      rcases hd with hd | rfl
      · have := whereCount_ge hd hc
        omega
      · rw [hclause _ hc]; omega
  | direct r f _ _ _ _ _ _ _ _ ih => exact notWhere (.inr rfl) (by simpa using ih)

/-! ## Depth bounds -/

theorem built_outputs (ha : ∀ p ∈ S.aggs ++ S.trans ++ S.groupbys, p.outputs = 1) (hs : ∀ f ∈ S.seeds, f.outputs = 1) {f : DFeat}
    (h : Built S target M f) : f.outputs = 1 := by
  induction h with
  | identity => rfl
  | seed f hf => exact hs f hf
  | slice => rfl
  | trans e n p t hp => exact ha p (by simp [hp])
  | groupby e n p t g hp => exact ha p (by simp [hp])
  | agg e c n path p t hp => exact ha p (by simp [hp])
  | aggWhere e c n path p t w f x v hp => exact ha p (by simp [hp])
  | direct r f _ _ _ _ _ _ _ _ ih => exact ih

/-- Depth by the level of an ancestor: for some entity above that of `f`, `s` relationships away, and a walk of `l` relationships to
it from the target. -/
def ByLevel (S : Synth) (target : String) (k : Int) (f : DFeat) : Prop :=
  ∃ q path l, Chain S.rels f.entity q path ∧ Walk S.rels target q l ∧
    ((f.depth (S.seeds.map DFeat.uname) : Nat) : Int) ≤ k - l + path.length

theorem built_byLevel (hw : S.wheres = []) (ha : ∀ p ∈ S.aggs ++ S.trans ++ S.groupbys, p.outputs = 1) (hs : ∀ f ∈ S.seeds, f.outputs = 1)
    {k : Int} {f : DFeat} (h : Built S target (some k) f) : ByLevel S target k f := by
  have level : ∀ {f : DFeat} {e : String}, f.entity = e →
      (∃ n, Walk S.rels target e n ∧ ∀ d ∈ f.bases ++ f.wh, Below S ((some k).map fun k : Int => k - (n : Int)) d) → f.bases ≠ [] →
      ByLevel S target k f := by
    rintro f e rfl ⟨n, hn, hb⟩ hne
    refine ⟨f.entity, [], n, rfl, hn, ?_⟩
    obtain ⟨d0, hd0⟩ := List.exists_mem_of_ne_nil _ hne
    have h0 := hb d0 (List.mem_append_left _ hd0) (k - n) rfl
    have hd : ∀ d ∈ f.bases ++ f.wh, d.depth (S.seeds.map DFeat.uname) ≤ (k - n - 1).toNat := by
      intro d hd
      have := hb d hd (k - n) rfl
      omega
    have := depth_le_succ hd
    simp
    omega
  induction h with
  | identity d v _ _ _ _ hr =>
    obtain ⟨n, hn, hk⟩ := hr
    refine ⟨_, [], n, rfl, hn, ?_⟩
    have := hk k rfl
    have hz : (identityOf d v).depth (S.seeds.map DFeat.uname) = 0 := by rw [depth_unfold]; rfl
    rw [hz]; simp; omega
  | seed f hf _ hr =>
    obtain ⟨n, hn, hk⟩ := hr
    refine ⟨_, [], n, rfl, hn, ?_⟩
    have := hk k rfl
    have hz : f.depth (S.seeds.map DFeat.uname) = 0 := by
      rw [depth_unfold]
      split
      · rfl
      · rw [if_pos]
        simp only [List.contains_iff_mem, List.mem_map]
        exact ⟨f, hf, rfl⟩
    rw [hz]; simp; omega
  | slice f i hf ho => rw [built_outputs ha hs hf] at ho; omega
  | trans e n p t _ _ _ _ hin => exact level rfl (by simpa [DFeat.bases, DFeat.wh, DFeat.entity] using hin.level) hin.nonempty
  | groupby e n p t g _ _ _ _ _ _ _ hl => exact level rfl (by simpa [DFeat.bases, DFeat.wh, DFeat.entity] using hl) (by simp [DFeat.bases])
  | agg e c n path p t _ _ _ _ _ _ _ hin => exact level rfl (by simpa [DFeat.bases, DFeat.wh, DFeat.entity] using hin.level) hin.nonempty
  | aggWhere e c n path p t w f x v _ _ _ _ _ _ _ _ _ _ _ hq => rw [hw] at hq; obtain ⟨q, hq, _⟩ := hq; cases hq
  | direct r f hr _ he _ _ _ _ _ ih =>
    obtain ⟨q, path, l, h1, h2, h3⟩ := ih
    refine ⟨q, r :: path, l, ⟨hr, rfl, he ▸ h1⟩, h2, ?_⟩
    have : (mkDirect S r f).depth (S.seeds.map DFeat.uname) ≤ f.depth (S.seeds.map DFeat.uname) + 1 :=
      depth_le_succ (by simp [mkDirect, DFeat.bases, DFeat.wh])
    simp
    omega

/-- The depth of anything built: the limit, one more for a direct feature or an output, three for a condition. -/
theorem built_depth {k : Int} (hk : 0 ≤ k) {f : DFeat} (h : Built S target (some k) f) (hns : ∀ n, f.kind ≠ .slice n) :
    ((f.depth (S.seeds.map DFeat.uname) : Nat) : Int) ≤ k + 3 ∧ (f.wh = [] → (∀ r, f.kind ≠ .direct r) → f ∉ S.seeds →
      ((f.depth (S.seeds.map DFeat.uname) : Nat) : Int) ≤ k) ∧ ((∃ r, f.kind = .direct r) → f ∉ S.seeds →
      ((f.depth (S.seeds.map DFeat.uname) : Nat) : Int) ≤ k + 1) ∧
      (f ∈ S.seeds → f.depth (S.seeds.map DFeat.uname) = 0) := by
  have seedz : ∀ {f : DFeat}, f ∈ S.seeds → f.depth (S.seeds.map DFeat.uname) = 0 := by
    intro f hf
    rw [depth_unfold]
    split
    · rfl
    · rw [if_pos]
      simp only [List.contains_iff_mem, List.mem_map]
      exact ⟨f, hf, rfl⟩
  have below : ∀ {n : Nat} {d : DFeat}, Below S ((some k).map fun k : Int => k - (n : Int)) d →
      ((d.depth (S.seeds.map DFeat.uname) : Nat) : Int) ≤ k - 1 := by
    intro n d hd
    have := hd (k - n) rfl
    omega
  have inner : ∀ {f : DFeat}, (∀ d ∈ f.bases ++ f.wh, ((d.depth (S.seeds.map DFeat.uname) : Nat) : Int) ≤ k - 1) → f.bases ≠ [] →
      ((f.depth (S.seeds.map DFeat.uname) : Nat) : Int) ≤ k := by
    intro f hb hne
    obtain ⟨d0, hd0⟩ := List.exists_mem_of_ne_nil _ hne
    have h0 := hb d0 (List.mem_append_left _ hd0)
    have hd : ∀ d ∈ f.bases ++ f.wh, d.depth (S.seeds.map DFeat.uname) ≤ (k - 1).toNat := by
      intro d hd
      have := hb d hd
      omega
    have := depth_le_succ hd
    omega
  have plain : ∀ {f : DFeat}, ((f.depth (S.seeds.map DFeat.uname) : Nat) : Int) ≤ k → (∀ r, f.kind ≠ .direct r) →
      ((f.depth (S.seeds.map DFeat.uname) : Nat) : Int) ≤ k + 3 ∧ (f.wh = [] → (∀ r, f.kind ≠ .direct r) → f ∉ S.seeds →
        ((f.depth (S.seeds.map DFeat.uname) : Nat) : Int) ≤ k) ∧ ((∃ r, f.kind = .direct r) → f ∉ S.seeds →
        ((f.depth (S.seeds.map DFeat.uname) : Nat) : Int) ≤ k + 1) ∧ (f ∈ S.seeds → f.depth (S.seeds.map DFeat.uname) = 0) := by
    intro f hf _
    exact ⟨by omega, fun _ _ _ => hf, fun _ _ => by omega, seedz⟩
  have direct : ∀ {f : DFeat}, Built S target (some k) f → (∀ x, varOf f = some x → ((f.depth (S.seeds.map DFeat.uname) : Nat) : Int) ≤ k + 1) := by
    intro f hf x hx
    cases hf with
    | identity d v =>
      have hz : (identityOf d v).depth (S.seeds.map DFeat.uname) = 0 := by rw [depth_unfold]; rfl
      rw [hz]; omega
    | seed f hf => rw [seedz hf]; omega
    | direct r f _ _ _ hu =>
      have := hu k rfl
      have : (mkDirect S r f).depth (S.seeds.map DFeat.uname) ≤ f.depth (S.seeds.map DFeat.uname) + 1 :=
        depth_le_succ (by simp [mkDirect, DFeat.bases, DFeat.wh])
      omega
    | slice => simp [sliceOf, varOf] at hx
    | trans => simp [varOf] at hx
    | groupby => simp [varOf] at hx
    | agg => simp [varOf] at hx
    | aggWhere => simp [varOf] at hx
  cases h with
  | identity d v =>
    have hz : (identityOf d v).depth (S.seeds.map DFeat.uname) = 0 := by rw [depth_unfold]; rfl
    exact plain (by rw [hz]; omega) (by simp [identityOf, DFeat.kind])
  | seed f hf => exact ⟨by rw [seedz hf]; omega, fun _ _ h => absurd hf h, fun _ h => absurd hf h, seedz⟩
  | slice f i => exact absurd rfl (hns i)
  | trans e n p t _ _ _ _ hin =>
    obtain ⟨m, _, hb⟩ := hin.level
    exact plain (inner (by simpa [DFeat.bases, DFeat.wh] using fun d hd => below (hb d hd)) hin.nonempty) (by simp [DFeat.kind])
  | groupby e n p t g _ _ _ _ _ _ _ hl =>
    obtain ⟨m, _, hb⟩ := hl
    refine plain (inner (fun d hd => ?_) (by simp [DFeat.bases])) (by simp [DFeat.kind])
    simp only [DFeat.bases, DFeat.wh, List.append_nil] at hd
    exact below (hb d hd)
  | agg e c n path p t _ _ _ _ _ _ _ hin =>
    obtain ⟨m, _, hb⟩ := hin.level
    exact plain (inner (by simpa [DFeat.bases, DFeat.wh] using fun d hd => below (hb d hd)) hin.nonempty) (by simp [DFeat.kind])
  | aggWhere e c n path p t w f x v _ _ _ _ _ _ _ hin _ _ _ _ hf hx _ hw =>
    obtain ⟨m, _, hb⟩ := hin.level
    refine ⟨?_, fun h => by simp [DFeat.wh] at h, fun ⟨r, h⟩ => by simp [DFeat.kind] at h, seedz⟩
    have h1 := direct hf x hx
    have h2 : w.depth (S.seeds.map DFeat.uname) ≤ f.depth (S.seeds.map DFeat.uname) + 1 := by
      rw [hw]
      exact depth_le_succ (by simp [clauseOf, DFeat.bases, DFeat.wh])
    have h3 : ∀ d ∈ t ++ [w], d.depth (S.seeds.map DFeat.uname) ≤ (k + 2).toNat := by
      intro d hd
      rcases List.mem_append.mp hd with hd | hd
      · have := below (hb d hd); omega
      · simp only [List.mem_singleton] at hd; subst hd; omega
    have := depth_le_succ (f := .mk (.agg path p) e n t [w]) h3
    omega
  | direct r f _ _ _ hu =>
    have h1 := hu k rfl
    have h2 : (mkDirect S r f).depth (S.seeds.map DFeat.uname) ≤ f.depth (S.seeds.map DFeat.uname) + 1 :=
      depth_le_succ (by simp [mkDirect, DFeat.bases, DFeat.wh])
    exact ⟨by omega, fun _ h _ => absurd rfl (h r), fun _ _ => by omega, seedz⟩

end
end FT
