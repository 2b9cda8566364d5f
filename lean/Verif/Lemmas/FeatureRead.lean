import Verif.Spec.FeatureRead
import Verif.Lemmas.FeatureFile
/-! # Lemmas about reading any file of features -/
namespace FT
open Spec

/-- What holds of every feature when loading keeps it. -/
theorem loadDeps_gen {R : String → SFeat → Prop} {load : LState → String → Except PyErr (SFeat × LState)}
    (hl : ∀ s n f s', load s n = .ok (f, s') → (∀ m g, s.memo.lookup m = some g → R m g) → R n f ∧ ∀ m g, s'.memo.lookup m = some g → R m g) :
    ∀ (ns : List String) (s : LState) fs s', loadDeps load s ns = .ok (fs, s') → (∀ m g, s.memo.lookup m = some g → R m g) →
      fs.map Prod.fst = ns ∧ (∀ x ∈ fs, R x.1 x.2) ∧ ∀ m g, s'.memo.lookup m = some g → R m g
  | [], s, fs, s', h, hs => by cases h; exact ⟨rfl, by simp, hs⟩
  | n :: ns, s, fs, s', h, hs => by
    rw [loadDeps] at h
    split at h
    · cases h
    · next f s1 hf =>
      obtain ⟨h1, h2⟩ := hl _ _ _ _ hf hs
      split at h
      · cases h
      · next fs2 s2 hfs =>
        cases h
        obtain ⟨h3, h4, h5⟩ := loadDeps_gen hl ns s1 fs2 _ hfs h2
        refine ⟨by simp [h3], ?_, h5⟩
        intro x hx
        rcases List.mem_cons.mp hx with rfl | hx
        · exact h1
        · exact h4 x hx

theorem loadFeature_gen {known : Known} {defs : List (String × SDef)} {R : String → SFeat → Prop}
    (hR : ∀ n d (deps : List (String × SFeat)) s f s', defs.lookup n = some d → deps.map Prod.fst = d.dependencies → (∀ x ∈ deps, R x.1 x.2) →
      fromDictionary known s deps d.args = .ok (f, s') → R n f) :
    ∀ (k : Nat) (s : LState) n f s', loadFeature known defs k s n = .ok (f, s') →
      (∀ m g, s.memo.lookup m = some g → R m g) → R n f ∧ ∀ m g, s'.memo.lookup m = some g → R m g
  | 0, _, _, _, _, h, _ => by cases h
  | k + 1, s, n, f, s', h, hs => by
    rw [loadFeature] at h
    split at h
    · next g hg =>
      cases h
      exact ⟨hs _ _ hg, hs⟩
    · split at h
      · cases h
      · next d hd =>
        split at h
        · cases h
        · next deps s1 hdeps =>
          obtain ⟨h1, h2, h3⟩ := loadDeps_gen (loadFeature_gen hR k) _ _ _ _ hdeps hs
          split at h
          · cases h
          · next f' ps hf =>
            cases h
            have hn : R n f := hR n d deps _ f _ hd h1 h2 hf
            refine ⟨hn, ?_⟩
            intro m g hm
            simp only [List.lookup_cons] at hm
            by_cases e : m = n
            · rw [show (m == n) = true by simpa using e] at hm
              simp only [Option.some.injEq] at hm
              subst hm; subst e
              exact hn
            · rw [show (m == n) = false by simpa using e] at hm
              exact h3 m g hm

theorem lookup_pair_mem {deps : List (String × SFeat)} {n : String} {f : SFeat} (h : deps.lookup n = some f) : (n, f) ∈ deps := by
  induction deps with
  | nil => cases h
  | cons x deps ih =>
    rw [List.lookup_cons] at h
    by_cases e : n = x.1
    · rw [show (n == x.1) = true by simpa using e] at h
      simp only [Option.some.injEq] at h
      rw [e, ← h]; exact List.mem_cons_self ..
    · rw [show (n == x.1) = false by simpa using e] at h
      exact List.mem_cons_of_mem _ (ih h)

theorem depFor_pair {deps : List (String × SFeat)} {n : String} {f : SFeat} (h : depFor deps n = .ok f) : (n, f) ∈ deps := by
  unfold depFor at h
  split at h
  · next g hg => cases h; exact lookup_pair_mem hg
  · cases h

theorem depsFor_pairs {deps : List (String × SFeat)} : ∀ {ns : List String} {fs : List SFeat}, depsFor deps ns = .ok fs →
    fs.length = ns.length ∧ (∀ (i : Nat) m b, ns[i]? = some m → fs[i]? = some b → (m, b) ∈ deps) ∧ ∀ m ∈ ns, ∃ b, (m, b) ∈ deps
  | [], fs, h => by cases h; exact ⟨rfl, by simp, by simp⟩
  | n :: ns, fs, h => by
    rw [depsFor] at h
    split at h
    · cases h
    · next f hf =>
      split at h
      · cases h
      · next gs hgs =>
        cases h
        obtain ⟨h1, h2, h3⟩ := depsFor_pairs hgs
        refine ⟨by simp [h1], ?_, ?_⟩
        · intro i m b hm hb
          cases i with
          | zero => simp only [List.getElem?_cons_zero, Option.some.injEq] at hm hb; subst hm hb; exact depFor_pair hf
          | succ i => simp only [List.getElem?_cons_succ] at hm hb; exact h2 i m b hm hb
        · intro m hm
          rcases List.mem_cons.mp hm with rfl | hm
          · exact ⟨f, depFor_pair hf⟩
          · exact h3 m hm

/-- Names and features beside each other in a list of dependencies. -/
def NamedBeside (deps : List (String × SFeat)) (ns : List String) (fs : List SFeat) : Prop :=
  fs.length = ns.length ∧ (∀ (i : Nat) m b, ns[i]? = some m → fs[i]? = some b → (m, b) ∈ deps) ∧ ∀ m ∈ ns, ∃ b, (m, b) ∈ deps

theorem paired_nil (deps : List (String × SFeat)) : NamedBeside deps [] [] := ⟨rfl, by simp, by simp⟩

theorem paired_one {deps : List (String × SFeat)} {n : String} {f : SFeat} (h : depFor deps n = .ok f) : NamedBeside deps [n] [f] := by
  refine ⟨rfl, ?_, ?_⟩
  · intro i m b hm hb
    cases i with
    | zero => simp only [List.getElem?_cons_zero, Option.some.injEq] at hm hb; subst hm hb; exact depFor_pair h
    | succ i => simp at hm
  · intro m hm
    rw [List.mem_singleton.mp hm]; exact ⟨f, depFor_pair h⟩

theorem paired_append {deps : List (String × SFeat)} {ns ms : List String} {fs gs : List SFeat} (h : NamedBeside deps ns fs) (h' : NamedBeside deps ms gs) :
    NamedBeside deps (ns ++ ms) (fs ++ gs) := by
  refine ⟨by simp [h.1, h'.1], ?_, ?_⟩
  · intro i m b hm hb
    by_cases hi : i < ns.length
    · rw [List.getElem?_append_left hi] at hm
      rw [List.getElem?_append_left (h.1 ▸ hi)] at hb
      exact h.2.1 i m b hm hb
    · have hi' : ns.length ≤ i := by omega
      rw [List.getElem?_append_right hi'] at hm
      rw [List.getElem?_append_right (h.1 ▸ hi'), h.1] at hb
      exact h'.2.1 _ m b hm hb
  · intro m hm
    rcases List.mem_append.mp hm with hm | hm
    · exact h.2.2 m hm
    · exact h'.2.2 m hm

theorem fromDictionary_paired {known : Known} {s s' : PDeser} {deps : List (String × SFeat)} {a : SArgs} {f : SFeat}
    (h : fromDictionary known s deps a = .ok (f, s')) : NamedBeside deps (inputsOf a) f.bases ∧ NamedBeside deps (conditionOf a) f.wh := by
  cases a with
  | identity n v e =>
    rw [fromDictionary] at h
    split at h <;> cases h
    exact ⟨paired_nil _, paired_nil _⟩
  | direct n b r =>
    rw [fromDictionary] at h
    split at h
    · cases h
    · next g hg =>
      split at h
      · cases h
      · split at h <;> cases h
        exact ⟨paired_one hg, paired_nil _⟩
  | agg n bs path pd wh pv =>
    rw [fromDictionary] at h
    split at h
    · cases h
    · next gs hgs =>
      split at h
      · cases h
      · split at h
        · cases h
        · obtain ⟨p, hp⟩ := withPrim_inv h
          unfold finishAgg at hp
          split at hp
          · cases hp
          · split at hp
            · cases hp
            · next w hw =>
              obtain ⟨_, _, h3, h4⟩ := makeAgg_inv hp
              refine ⟨by rw [h3]; exact depsFor_pairs hgs, ?_⟩
              rw [h4]
              unfold loadWhere at hw
              split at hw
              · cases hw; exact paired_nil _
              · next m =>
                cases hm : depFor deps m with
                | error e => rw [hm] at hw; cases hw
                | ok y => rw [hm] at hw; cases hw; exact paired_one hm
  | trans n bs pd =>
    rw [fromDictionary] at h
    split at h
    · cases h
    · next gs hgs =>
      obtain ⟨p, hp⟩ := withPrim_inv h
      obtain ⟨_, _, h3, h4⟩ := makeTrans_inv hp
      rw [h3, h4]
      exact ⟨depsFor_pairs hgs, paired_nil _⟩
  | groupby n bs pd g =>
    rw [fromDictionary] at h
    split at h
    · cases h
    · next gs hgs =>
      obtain ⟨p, hp⟩ := withPrim_inv h
      split at hp
      · cases hp
      · next g' hg' =>
        obtain ⟨_, _, h3, h4⟩ := makeTrans_inv hp
        rw [h3, h4]
        exact ⟨paired_append (depsFor_pairs hgs) (paired_one hg'), paired_nil _⟩
  | slice n b i =>
    rw [fromDictionary] at h
    split at h
    · cases h
    · next g hg => cases h; exact ⟨paired_one hg, paired_nil _⟩
  | other t => rw [fromDictionary] at h; cases h

/-- A name whose definition, and those it needs, are there and do not need themselves. -/
inductive Fillable (defs : List (String × SDef)) : String → Prop
  | mk {n : String} {d : SDef} (h : defs.lookup n = some d) (hd : ∀ m ∈ d.dependencies, Fillable defs m) : Fillable defs n

theorem fileNeeds_trans {defs : List (String × SDef)} {a b c : String} (h : FileNeeds defs a b) (h' : FileNeeds defs b c) : FileNeeds defs a c := by
  induction h with
  | direct h hm => exact .through h hm h'
  | through h hm _ ih => exact .through h hm (ih h')

theorem fillable_needs {defs : List (String × SDef)} {n m : String} (hc : Fillable defs n) (h : FileNeeds defs n m) : Fillable defs m := by
  induction h with
  | direct h hm => cases hc with | mk h' hd => rw [h] at h'; cases h'; exact hd _ hm
  | through h hm _ ih => cases hc with | mk h' hd => rw [h] at h'; cases h'; exact ih (hd _ hm)

theorem fillable_acyclic {defs : List (String × SDef)} {n : String} (hc : Fillable defs n) : ¬ FileNeeds defs n n := by
  induction hc with
  | mk h hd ih =>
    intro hn
    cases hn with
    | direct h' hm => exact ih _ (by rw [h] at h'; cases h'; exact hm) (.direct h' hm)
    | through h' hm hk =>
      refine ih _ (by rw [h] at h'; cases h'; exact hm) ?_
      exact fileNeeds_trans hk (.direct h' hm)

/-- What loading makes of a name. -/
theorem loadFeature_reads (known : Known) (defs : List (String × SDef)) (k : Nat) (s : LState) (n : String) (f : SFeat) (s' : LState)
    (h : loadFeature known defs k s n = .ok (f, s'))
    (hs : ∀ m g, s.memo.lookup m = some g → Grounded known g ∧ FileSays defs m g ∧ Fillable defs m) :
    (Grounded known f ∧ FileSays defs n f ∧ Fillable defs n) ∧ ∀ m g, s'.memo.lookup m = some g → Grounded known g ∧ FileSays defs m g ∧ Fillable defs m := by
  refine loadFeature_gen (R := fun n f => Grounded known f ∧ FileSays defs n f ∧ Fillable defs n) ?_ k s n f s' h hs
  intro n d deps s f s' hd hnames hall hf
  obtain ⟨h1, h2⟩ := fromDictionary_inv hf fun x hx => (hall x hx).1
  obtain ⟨p1, p2⟩ := fromDictionary_paired hf
  have hlisted : ∀ m b, (m, b) ∈ deps → m ∈ d.dependencies := fun m b hm => hnames ▸ List.mem_map_of_mem (f := Prod.fst) hm
  refine ⟨h2, .mk hd h1 ?_ p1.1 (fun i m b hm hb => (hall _ (p1.2.1 i m b hm hb)).2.1) p2.1 (fun i m b hm hb => (hall _ (p2.2.1 i m b hm hb)).2.1), .mk hd ?_⟩
  · rintro m (hm | hm)
    · obtain ⟨b, hb⟩ := p1.2.2 m hm; exact hlisted m b hb
    · obtain ⟨b, hb⟩ := p2.2.2 m hm; exact hlisted m b hb
  · intro m hm
    rw [← hnames] at hm
    obtain ⟨x, hx, rfl⟩ := List.mem_map.mp hm
    exact (hall x hx).2.2

end FT
