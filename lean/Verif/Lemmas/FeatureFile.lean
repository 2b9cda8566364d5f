import Verif.Spec.FeatureFile
import Verif.Lemmas.PrimFile
import Verif.Props.PrimFile
import Verif.Props.Timedelta
/-! Lemmas on saving and loading features. -/
namespace FT
open Spec

section
variable (k : SKind) (e n : String) (b w : List SFeat)
theorem SFeat.kind_mk : (SFeat.mk k e n b w).kind = k := rfl
theorem SFeat.entity_mk : (SFeat.mk k e n b w).entity = e := rfl
theorem SFeat.name_mk : (SFeat.mk k e n b w).name = n := rfl
theorem SFeat.bases_mk : (SFeat.mk k e n b w).bases = b := rfl
theorem SFeat.wh_mk : (SFeat.mk k e n b w).wh = w := rfl
end

theorem Spec.SUses.trans {f g h : SFeat} (h1 : SUses f g) (h2 : SUses g h) : SUses f h := by
  induction h1 with
  | self => exact h2
  | dep hd _ ih => exact .dep hd (ih h2)

mutual
theorem mem_sdeep : ∀ (f g : SFeat), g ∈ f.deepDeps ↔ ∃ d, (d ∈ f.bases ∨ d ∈ f.wh) ∧ SUses d g
  | .mk k e n bases wh, g => by
    simp only [SFeat.deepDeps, List.mem_append, mem_sdeepL, SFeat.bases, SFeat.wh]
    constructor
    · rintro ((h | h) | (⟨d, hd, d', hd', hu⟩ | ⟨d, hd, d', hd', hu⟩))
      · exact ⟨g, .inl h, .self g⟩
      · exact ⟨g, .inr h, .self g⟩
      · exact ⟨d, .inl hd, .dep hd' hu⟩
      · exact ⟨d, .inr hd, .dep hd' hu⟩
    · rintro ⟨d, hd, hu⟩
      cases hu with
      | self => exact .inl hd
      | dep h1 h2 =>
        rcases hd with hd | hd
        · exact .inr (.inl ⟨d, hd, _, h1, h2⟩)
        · exact .inr (.inr ⟨d, hd, _, h1, h2⟩)
theorem mem_sdeepL : ∀ (fs : List SFeat) (g : SFeat), g ∈ SFeat.deepDepsL fs ↔ ∃ f ∈ fs, ∃ d, (d ∈ f.bases ∨ d ∈ f.wh) ∧ SUses d g
  | [], g => by simp [SFeat.deepDepsL]
  | f :: fs, g => by
    simp only [SFeat.deepDepsL, List.mem_append, mem_sdeep f g, mem_sdeepL fs g, List.mem_cons]
    constructor
    · rintro (h | ⟨f', hf, h⟩)
      · exact ⟨f, .inl rfl, h⟩
      · exact ⟨f', .inr hf, h⟩
    · rintro ⟨f', rfl | hf, h⟩
      · exact .inl h
      · exact .inr ⟨f', hf, h⟩
end

theorem suses_iff (f g : SFeat) : SUses f g ↔ g = f ∨ g ∈ f.deepDeps := by
  rw [mem_sdeep]
  constructor
  · intro h
    cases h with
    | self => exact .inl rfl
    | dep h1 h2 => exact .inr ⟨_, h1, h2⟩
  · rintro (rfl | ⟨d, h1, h2⟩)
    · exact .self _
    · exact .dep h1 h2

/-! ## Saving -/

/-- The names stored. -/
abbrev storedNames (d : List (String × SDef)) : List String := d.map Prod.fst

theorem any_key {d : List (String × SDef)} {n : String} : (d.any fun x => x.1 == n) = true ↔ n ∈ storedNames d := by
  simp [storedNames]

/-- What is stored comes from the features of `U`. -/
def FromU (U : SFeat → Prop) (d : List (String × SDef)) : Prop :=
  (storedNames d).Nodup ∧ ∀ x ∈ d, ∃ f, U f ∧ x = (f.uname, f.toDictionary)

theorem storeIfNew_fromU {U : SFeat → Prop} {d : List (String × SDef)} {f : SFeat} (h : FromU U d) (hf : U f) : FromU U (storeIfNew d f) := by
  unfold storeIfNew
  split
  · exact h
  · next hn =>
    rw [any_key] at hn
    refine ⟨?_, ?_⟩
    · simp only [storedNames, List.map_append, List.map_cons, List.map_nil, List.nodup_append]
      refine ⟨h.1, by simp, ?_⟩
      intro a ha b hb e
      simp only [List.mem_singleton] at hb
      subst hb; subst e
      exact hn ha
    · intro x hx
      rcases List.mem_append.mp hx with hx | hx
      · exact h.2 x hx
      · simp only [List.mem_singleton] at hx
        exact ⟨f, hf, hx⟩

theorem foldl_store_fromU {U : SFeat → Prop} : ∀ (l : List SFeat) {d : List (String × SDef)}, FromU U d → (∀ f ∈ l, U f) → FromU U (l.foldl storeIfNew d)
  | [], _, h, _ => h
  | f :: l, _, h, hl => foldl_store_fromU l (storeIfNew_fromU h (hl f List.mem_cons_self)) fun g hg => hl g (List.mem_cons_of_mem _ hg)

theorem storeIfNew_names (d : List (String × SDef)) (f : SFeat) (n : String) :
    n ∈ storedNames (storeIfNew d f) ↔ n ∈ storedNames d ∨ n = f.uname := by
  unfold storeIfNew
  split
  · next h =>
    rw [any_key] at h
    constructor
    · exact .inl
    · rintro (h' | rfl)
      · exact h'
      · exact h
  · simp [storedNames]

theorem foldl_store_names : ∀ (l : List SFeat) (d : List (String × SDef)) (n : String),
    n ∈ storedNames (l.foldl storeIfNew d) ↔ n ∈ storedNames d ∨ ∃ f ∈ l, n = f.uname
  | [], d, n => by simp
  | f :: l, d, n => by
    rw [List.foldl_cons, foldl_store_names l, storeIfNew_names]
    simp only [List.mem_cons, exists_eq_or_imp, or_assoc]

theorem serializeFeature_eq (d : List (String × SDef)) (f : SFeat) :
    serializeFeature d f = if f.uname ∈ storedNames d then d else f.deepDeps.foldl storeIfNew (storeIfNew d f) := by
  unfold serializeFeature storeIfNew
  by_cases h : f.uname ∈ storedNames d
  · rw [if_pos h, if_pos (any_key.mpr h)]
  · rw [if_neg h, if_neg (fun h' => h (any_key.mp h')), if_neg (fun h' => h (any_key.mp h'))]

theorem serializeFeature_fromU {U : SFeat → Prop} {d : List (String × SDef)} {f : SFeat} (h : FromU U d) (hf : ∀ g, SUses f g → U g) :
    FromU U (serializeFeature d f) := by
  rw [serializeFeature_eq]
  split
  · exact h
  · exact foldl_store_fromU _ (storeIfNew_fromU h (hf f (.self f))) fun g hg => hf g ((suses_iff f g).mpr (.inr hg))

theorem foldl_serialize_fromU {U : SFeat → Prop} : ∀ (fs : List SFeat) {d : List (String × SDef)}, FromU U d → (∀ f ∈ fs, ∀ g, SUses f g → U g) →
    FromU U (fs.foldl serializeFeature d)
  | [], _, h, _ => h
  | f :: l, _, h, hl => foldl_serialize_fromU l (serializeFeature_fromU h (hl f List.mem_cons_self)) fun g hg => hl g (List.mem_cons_of_mem _ hg)

/-- With each feature of `U` stored are those it uses. -/
def ClosedIn (U : SFeat → Prop) (d : List (String × SDef)) : Prop :=
  ∀ f g, U f → f.uname ∈ storedNames d → SUses f g → g.uname ∈ storedNames d

section
variable {U : SFeat → Prop} (hinj : ∀ f g, U f → U g → f.uname = g.uname → f = g)
include hinj

theorem serializeFeature_closed {d : List (String × SDef)} {f : SFeat} (h : ClosedIn U d) (hf : ∀ g, SUses f g → U g) :
    ClosedIn U (serializeFeature d f) ∧ (∀ n ∈ storedNames d, n ∈ storedNames (serializeFeature d f)) ∧
      ∀ g, SUses f g → g.uname ∈ storedNames (serializeFeature d f) := by
  rw [serializeFeature_eq]
  split
  · next hn => exact ⟨h, fun _ h => h, fun g hg => h f g (hf f (.self f)) hn hg⟩
  · have hmem : ∀ n, n ∈ storedNames (f.deepDeps.foldl storeIfNew (storeIfNew d f)) ↔ n ∈ storedNames d ∨ ∃ g, SUses f g ∧ n = g.uname := by
      intro n
      rw [foldl_store_names, storeIfNew_names, or_assoc]
      apply or_congr_right
      simp only [suses_iff]
      constructor
      · rintro (h | ⟨g, hg, h⟩)
        · exact ⟨f, .inl rfl, h⟩
        · exact ⟨g, .inr hg, h⟩
      · rintro ⟨g, rfl | hg, h⟩
        · exact .inl h
        · exact .inr ⟨g, hg, h⟩
    refine ⟨?_, fun n hn => (hmem n).mpr (.inl hn), fun g hg => (hmem _).mpr (.inr ⟨g, hg, rfl⟩)⟩
    intro a b ha hm hab
    rw [hmem] at hm ⊢
    rcases hm with hm | ⟨g, hg, e⟩
    · exact .inl (h a b ha hm hab)
    · have := hinj a g ha (hf g hg) e
      subst this
      exact .inr ⟨b, hg.trans hab, rfl⟩

theorem foldl_serialize_closed : ∀ (fs : List SFeat) {d : List (String × SDef)}, ClosedIn U d → (∀ f ∈ fs, ∀ g, SUses f g → U g) →
    (∀ n ∈ storedNames d, n ∈ storedNames (fs.foldl serializeFeature d)) ∧
      ∀ f ∈ fs, ∀ g, SUses f g → g.uname ∈ storedNames (fs.foldl serializeFeature d)
  | [], _, _, _ => ⟨fun _ h => h, fun _ h => by simp at h⟩
  | f :: l, d, h, hl => by
    obtain ⟨h1, h2, h3⟩ := serializeFeature_closed hinj h (hl f List.mem_cons_self)
    obtain ⟨h4, h5⟩ := foldl_serialize_closed l h1 fun g hg => hl g (List.mem_cons_of_mem _ hg)
    refine ⟨fun n hn => h4 n (h2 n hn), ?_⟩
    intro f' hf' g hg
    rcases List.mem_cons.mp hf' with rfl | hf'
    · exact h4 _ (h3 g hg)
    · exact h5 f' hf' g hg

end

theorem lookup_of_mem_nodup {α : Type} {l : List (String × α)} (hn : (l.map Prod.fst).Nodup) {x : String × α} (hx : x ∈ l) : l.lookup x.1 = some x.2 := by
  induction l with
  | nil => simp at hx
  | cons y l ih =>
    simp only [List.map_cons, List.nodup_cons] at hn
    rw [List.lookup_cons]
    rcases List.mem_cons.mp hx with rfl | hx
    · simp
    · have : x.1 ≠ y.1 := fun e => hn.1 (by rw [← e]; exact List.mem_map.mpr ⟨x, hx, rfl⟩)
      rw [show (x.1 == y.1) = false by simpa using this]
      exact ih hn.2 hx

/-! ## Loading -/

theorem withPrim_ok {all : List PClass} {root : ClassTree} (hall : all = root.descendants) {s : PDeser} (hs : DeserOk all s) {p : PInst} (hp : Storable root p)
    {α : Type} {k : PInst → Except PyErr α} {x : α} (hk : k p = .ok x) : ∃ s', withPrim s (serializePrimitive p) k = .ok (x, s') ∧ DeserOk all s' := by
  subst hall
  have hst := deserialize_state hs (serializePrimitive p)
  have hres : (deserializePrimitive s (serializePrimitive p)).1 = .ok p := by
    have h0 := C49_roundtrip_partial root [] p hp.1 hp.2.1 hp.2.2.1 hp.2.2.2.1 hp.2.2.2.2
    rw [C49_lookup_partial root [] (serializePrimitive p) p.cls hp.1 rfl hp.2.1] at h0
    rcases deserialize_result hs (serializePrimitive p) with ⟨h, _⟩ | ⟨c', hc', hk', h⟩
    · exact absurd rfl (h p.cls ((mem_descendants _ _).mpr hp.1))
    · rw [h, hp.2.1 c' ((mem_descendants _ _).mp hc') hk', h0]
  unfold withPrim
  generalize deserializePrimitive s (serializePrimitive p) = r at hst hres
  obtain ⟨r1, r2⟩ := r
  simp only at hres hst
  subst hres
  exact ⟨r2, by simp [hk, Except.map], hst⟩

theorem makeTrans_ok {k : SKind} {f : SFeat} (hk : f.kind = k) (hb : f.bases ≠ []) (hw : f.wh = []) (he : ∀ b ∈ f.bases, b.entity = f.entity) :
    makeTrans k f.name f.bases = .ok f := by
  obtain ⟨k', e, n, bs, w⟩ := f
  simp only [SFeat.kind_mk, SFeat.bases_mk, SFeat.wh_mk, SFeat.name_mk, SFeat.entity_mk] at *
  subst hk; subst hw
  cases bs with
  | nil => exact absurd rfl hb
  | cons b bs =>
    have h0 := he b List.mem_cons_self
    unfold makeTrans
    simp only
    rw [if_pos, h0]
    simp only [List.all_eq_true, beq_iff_eq]
    exact fun c hc => by rw [he c (List.mem_cons_of_mem _ hc), h0]

theorem relKnown_iff {known : Known} {r : Relationship} : relKnown known r = true ↔ RelThere known r := by
  simp [relKnown, RelThere]

section
variable {U : SFeat → Prop} (hinj : ∀ f g, U f → U g → f.uname = g.uname → f = g)
include hinj

/-- The dependencies loaded so far are those of that name. -/
theorem depFor_ok {l : List SFeat} (hl : ∀ f ∈ l, U f) {f : SFeat} (hf : f ∈ l) : depFor (l.map fun g => (g.uname, g)) f.uname = .ok f := by
  unfold depFor
  have : (l.map fun g => (g.uname, g)).lookup f.uname = some f := by
    induction l with
    | nil => simp at hf
    | cons g l ih =>
      rw [List.map_cons, List.lookup_cons]
      by_cases e : f.uname = g.uname
      · rw [hinj f g (hl f hf) (hl g List.mem_cons_self) e]
        simp
      · rw [show (f.uname == g.uname) = false by simpa using e]
        refine ih (fun x hx => hl x (List.mem_cons_of_mem _ hx)) ?_
        rcases List.mem_cons.mp hf with rfl | hf
        · exact absurd rfl e
        · exact hf
  rw [this]

theorem depsFor_ok {l : List SFeat} (hl : ∀ f ∈ l, U f) : ∀ {fs : List SFeat}, (∀ f ∈ fs, f ∈ l) →
    depsFor (l.map fun g => (g.uname, g)) (fs.map SFeat.uname) = .ok fs
  | [], _ => rfl
  | f :: fs, h => by
    rw [List.map_cons, depsFor, depFor_ok hinj hl (h f List.mem_cons_self), depsFor_ok hl fun g hg => h g (List.mem_cons_of_mem _ hg)]

variable {known : Known} {root : ClassTree}

theorem fromDictionary_ok {f : SFeat} (hU : ∀ g, SUses f g → U g) (hb : Built known f) (hp : ∀ p, HasPrim f p → Storable root p) (hg : GroupedApart f)
    {s : PDeser} (hs : DeserOk root.descendants s) :
    ∃ s', fromDictionary known s (f.deps.map fun g => (g.uname, g)) f.getArguments = .ok (f, s') ∧ DeserOk root.descendants s' := by
  have hdU : ∀ g ∈ f.deps, U g := fun g hg' => hU g (.dep (List.mem_append.mp hg') (.self g))
  have hdep := fun {g : SFeat} (h : g ∈ f.deps) => depFor_ok hinj hdU h
  have hdeps := fun {gs : List SFeat} (h : ∀ g ∈ gs, g ∈ f.deps) => depsFor_ok hinj hdU h
  have hbm : ∀ g ∈ f.bases, g ∈ f.deps := fun g h => List.mem_append_left _ h
  unfold SFeat.getArguments
  unfold Built at hb
  split at hb
  · next v hk =>
    rw [hk]
    obtain ⟨h1, h2, h3⟩ := hb
    simp only [fromDictionary, h3, if_true]
    refine ⟨s, ?_, hs⟩
    obtain ⟨k', e, n, bs, w⟩ := f
    simp only [SFeat.kind_mk, SFeat.bases_mk, SFeat.wh_mk] at hk h1 h2
    subst hk; subst h1; subst h2
    rfl
  · next r hk =>
    rw [hk]
    obtain ⟨b, h1, h2, h3, h4, h5⟩ := hb
    simp only [fromDictionary, h1, headName]
    rw [hdep (hbm b (by rw [h1]; simp))]
    simp only [relKnown_iff.mpr h5, Bool.not_true, Bool.false_eq_true, if_false, h3, if_true]
    refine ⟨s, ?_, hs⟩
    obtain ⟨k', e, n, bs, w⟩ := f
    simp only [SFeat.kind_mk, SFeat.bases_mk, SFeat.wh_mk, SFeat.entity_mk] at hk h1 h2 h4
    subst hk; subst h1; subst h2; subst h4
    rfl
  · next path p prev hk =>
    rw [hk]
    obtain ⟨h1, h2, ⟨r, h3, h4⟩, ⟨r', h5, h6, h7⟩, h8, h9⟩ := hb
    simp only [fromDictionary]
    rw [hdeps hbm]
    simp only
    rw [if_neg (by simp only [List.any_eq_true, not_exists, not_and, Bool.not_eq_true, Bool.not_eq_false']; exact fun r hr => relKnown_iff.mpr (h8 r hr))]
    have hne : path ≠ [] := fun e => by subst e; simp at h3
    rw [if_neg (by simpa using hne)]
    refine withPrim_ok rfl hs (hp p (.inl ⟨path, prev, hk⟩)) ?_
    unfold finishAgg
    have hprev : loadPrev (prev.map Timedelta.getArguments) = .ok prev := by
      cases prev with
      | none => rfl
      | some td =>
        obtain ⟨times, ht⟩ := h9 td rfl
        simp only [Option.map_some, loadPrev, C18_arguments_roundtrip times td ht, Except.map]
    have hwh : loadWhere (f.deps.map fun g => (g.uname, g)) (f.wh.head?.map SFeat.uname) = .ok f.wh := by
      rcases hw : f.wh with _ | ⟨w, _ | ⟨_, _⟩⟩
      · rfl
      · simp only [List.head?_cons, Option.map_some, loadWhere]
        rw [hdep (List.mem_append_right _ (by rw [hw]; simp))]
        rfl
      · rw [hw] at h2; simp at h2
    rw [hprev, hwh]
    simp only
    obtain ⟨k', e, n, bs, w⟩ := f
    simp only [SFeat.kind_mk, SFeat.bases_mk, SFeat.wh_mk, SFeat.entity_mk, SFeat.name_mk] at *
    subst hk
    cases bs with
    | nil => exact absurd rfl h1
    | cons b bs =>
      cases path with
      | nil => exact absurd rfl hne
      | cons q qs =>
        simp only [List.head?_cons, Option.some.injEq] at h3
        subst h3
        rw [List.getLast?_eq_some_getLast (by simp), Option.some.injEq] at h5
        have hb0 := h6 b List.mem_cons_self
        unfold makeAgg
        simp only
        rw [if_neg, if_neg, if_neg, h4]
        · simp only [Bool.not_eq_true', Bool.not_eq_false, List.all_eq_true, beq_iff_eq]
          exact fun c hc => by rw [h7 c hc, hb0]
        · simp [h5, hb0]
        · simp only [Bool.not_eq_true', Bool.not_eq_false, List.all_eq_true, beq_iff_eq]
          exact fun c hc => by rw [h6 c (List.mem_cons_of_mem _ hc), hb0]
  · next p hk =>
    rw [hk]
    obtain ⟨h1, h2, h3⟩ := hb
    simp only [fromDictionary]
    rw [hdeps hbm]
    exact withPrim_ok rfl hs (hp p (.inr (.inl hk))) (makeTrans_ok hk h1 h2 h3)
  · next p hk =>
    rw [hk]
    obtain ⟨h1, h2, h3⟩ := hb
    obtain ⟨init, g, hig⟩ : ∃ init g, f.bases = init ++ [g] := ⟨f.bases.dropLast, f.bases.getLast h1, (List.dropLast_concat_getLast h1).symm⟩
    have hgi := hg p init g hk hig
    have hlast : headName f.bases.reverse = g.uname := by rw [hig]; simp [headName]
    have hfil : ((f.bases.map SFeat.uname).filter fun n => n != headName f.bases.reverse) = init.map SFeat.uname := by
      rw [hlast, hig]
      simp only [List.map_append, List.map_cons, List.map_nil, List.filter_append, List.filter_cons, bne_self_eq_false, Bool.false_eq_true, if_false,
        List.filter_nil, List.append_nil]
      rw [List.filter_eq_self]
      intro n hn
      obtain ⟨x, hx, rfl⟩ := List.mem_map.mp hn
      simp only [bne_iff_ne, ne_eq]
      intro e
      have := hinj x g (hdU x (hbm x (by rw [hig]; simp [hx]))) (hdU g (hbm g (by rw [hig]; simp))) e
      exact hgi (this ▸ hx)
    simp only [fromDictionary]
    rw [hfil, hlast, hdeps fun x hx => hbm x (by rw [hig]; simp [hx])]
    refine withPrim_ok rfl hs (hp p (.inr (.inr hk))) ?_
    rw [hdep (hbm g (by rw [hig]; simp))]
    simp only
    rw [← hig]
    exact makeTrans_ok hk h1 h2 h3
  · next n hk =>
    rw [hk]
    obtain ⟨b, h1, h2, h3⟩ := hb
    simp only [fromDictionary, h1, headName]
    rw [hdep (hbm b (by rw [h1]; simp))]
    refine ⟨s, ?_, hs⟩
    obtain ⟨k', e, n, bs, w⟩ := f
    simp only [SFeat.kind_mk, SFeat.bases_mk, SFeat.wh_mk, SFeat.entity_mk] at hk h1 h2 h3
    subst hk; subst h1; subst h2; subst h3
    rfl

end

/-! ## The recursion -/

mutual
/-- How deep a feature is. -/
def SFeat.height : SFeat → Nat
  | .mk _ _ _ bases wh => max (heightL bases) (heightL wh) + 1
/-- The greatest depth in a list. -/
def SFeat.heightL : List SFeat → Nat
  | [] => 0
  | f :: fs => max f.height (heightL fs)
end

theorem height_memL {f : SFeat} : ∀ {fs : List SFeat}, f ∈ fs → f.height ≤ SFeat.heightL fs
  | g :: fs, h => by
    rw [SFeat.heightL]
    rcases List.mem_cons.mp h with rfl | h
    · omega
    · have := height_memL h; omega

theorem height_dep {f d : SFeat} (h : d ∈ f.deps) : d.height < f.height := by
  obtain ⟨k, e, n, bs, w⟩ := f
  rw [SFeat.height]
  rcases List.mem_append.mp h with h | h
  · have := height_memL (fs := bs) h; omega
  · have := height_memL (fs := w) h; omega

/-- What loading keeps up. -/
def LOk (U : SFeat → Prop) (root : ClassTree) (s : LState) : Prop :=
  (∀ n f, s.memo.lookup n = some f → U f ∧ f.uname = n) ∧ DeserOk root.descendants s.prims

theorem loadDeps_ok {U : SFeat → Prop} {root : ClassTree} {load : LState → String → Except PyErr (SFeat × LState)} :
    ∀ (l : List SFeat), (∀ f ∈ l, ∀ s, LOk U root s → ∃ s', load s f.uname = .ok (f, s') ∧ LOk U root s') → ∀ s, LOk U root s →
      ∃ s', loadDeps load s (l.map SFeat.uname) = .ok (l.map (fun g => (g.uname, g)), s') ∧ LOk U root s'
  | [], _, s, hs => ⟨s, rfl, hs⟩
  | f :: l, h, s, hs => by
    obtain ⟨s1, h1, h2⟩ := h f List.mem_cons_self s hs
    obtain ⟨s2, h3, h4⟩ := loadDeps_ok l (fun g hg => h g (List.mem_cons_of_mem _ hg)) s1 h2
    exact ⟨s2, by simp [loadDeps, h1, h3], h4⟩

theorem loadFeature_ok {U : SFeat → Prop} (hinj : ∀ f g, U f → U g → f.uname = g.uname → f = g) (hU : ∀ f, U f → ∀ g, SUses f g → U g)
    {known : Known} {root : ClassTree} (hb : ∀ f, U f → Built known f) (hp : ∀ f p, U f → HasPrim f p → Storable root p) (hg : ∀ f, U f → GroupedApart f)
    {defs : List (String × SDef)} (hd : ∀ f, U f → defs.lookup f.uname = some f.toDictionary) :
    ∀ (k : Nat) (f : SFeat), U f → f.height ≤ k → ∀ s, LOk U root s → ∃ s', loadFeature known defs k s f.uname = .ok (f, s') ∧ LOk U root s'
  | 0, f, _, hk, _, _ => by
    obtain ⟨k, e, n, bs, w⟩ := f
    rw [SFeat.height] at hk; omega
  | k + 1, f, hf, hk, s, hs => by
    rw [loadFeature]
    cases hm : s.memo.lookup f.uname with
    | some f' =>
      have := hs.1 _ _ hm
      have := hinj f' f this.1 hf this.2
      subst this
      exact ⟨s, rfl, hs⟩
    | none =>
      simp only [hd f hf]
      obtain ⟨s1, h1, h2⟩ := loadDeps_ok (U := U) (root := root) (load := loadFeature known defs k) f.deps (fun g hg' s hs =>
        loadFeature_ok hinj hU hb hp hg hd k g (hU f hf g (.dep (List.mem_append.mp hg') (.self g))) (by have := height_dep hg'; omega) s hs) s hs
      obtain ⟨s2, h3, h4⟩ := fromDictionary_ok hinj (hU f hf) (hb f hf) (fun p => hp f p hf) (hg f hf) h2.2
      simp only [SFeat.toDictionary, h1, h3]
      refine ⟨_, rfl, ?_, h4⟩
      intro n g hn
      rw [List.lookup_cons] at hn
      by_cases e : n = f.uname
      · rw [show (n == f.uname) = true by simpa using e] at hn
        simp only [Option.some.injEq] at hn
        subst hn
        exact ⟨hf, e.symm⟩
      · rw [show (n == f.uname) = false by simpa using e] at hn
        exact h2.1 n g hn

end FT

/-! ## What a file gives -/
namespace FT
open Spec

theorem grounded_mk {known : Known} {f : SFeat} (hd : ∀ d ∈ f.deps, Grounded known d)
    (h : (∀ v, f.kind = .identity v → known f.entity v = true) ∧ (∀ r, f.kind = .direct r → RelThere known r) ∧
      ∀ path p prev, f.kind = .agg path p prev → ∀ r ∈ path, RelThere known r) : Grounded known f := by
  intro g hg
  cases hg with
  | self => exact h
  | dep h1 h2 => exact hd _ (List.mem_append.mpr h1) g h2

theorem depFor_mem {deps : List (String × SFeat)} {n : String} {f : SFeat} (h : depFor deps n = .ok f) : ∃ m, (m, f) ∈ deps := by
  unfold depFor at h
  split at h
  · next g hg =>
    cases h
    obtain ⟨l1, l2, h1, _⟩ := List.lookup_eq_some_iff.mp hg
    exact ⟨n, by rw [h1]; simp⟩
  · cases h

theorem depsFor_mem {deps : List (String × SFeat)} : ∀ {ns : List String} {fs : List SFeat}, depsFor deps ns = .ok fs →
    fs.length = ns.length ∧ ∀ f ∈ fs, ∃ m, (m, f) ∈ deps
  | [], fs, h => by cases h; simp
  | n :: ns, fs, h => by
    rw [depsFor] at h
    split at h
    · cases h
    · next f hf =>
      split at h
      · cases h
      · next gs hgs =>
        cases h
        obtain ⟨h1, h2⟩ := depsFor_mem hgs
        refine ⟨by simp [h1], ?_⟩
        intro g hg
        rcases List.mem_cons.mp hg with rfl | hg
        · exact depFor_mem hf
        · exact h2 g hg

theorem withPrim_inv {α : Type} {s s' : PDeser} {d : PDict} {k : PInst → Except PyErr α} {x : α} (h : withPrim s d k = .ok (x, s')) : ∃ p, k p = .ok x := by
  unfold withPrim at h
  split at h
  · cases h
  · next p s1 _ =>
    refine ⟨p, ?_⟩
    cases hk : k p with
    | error e => rw [hk] at h; cases h
    | ok y => rw [hk] at h; cases h; rfl

theorem makeTrans_inv {k : SKind} {n : String} {bs : List SFeat} {f : SFeat} (h : makeTrans k n bs = .ok f) : f.kind = k ∧ f.name = n ∧ f.bases = bs ∧ f.wh = [] := by
  unfold makeTrans at h
  split at h
  · cases h
  · split at h <;> cases h
    exact ⟨rfl, rfl, rfl, rfl⟩

theorem makeAgg_inv {n : String} {bs : List SFeat} {path : List Relationship} {p : PInst} {prev : Option Timedelta} {w : List SFeat} {f : SFeat}
    (h : makeAgg n bs path p prev w = .ok f) : f.kind = .agg path p prev ∧ f.name = n ∧ f.bases = bs ∧ f.wh = w := by
  unfold makeAgg at h
  split at h
  · cases h
  · cases h
  · split at h
    · cases h
    · split at h
      · cases h
      · split at h <;> cases h
        exact ⟨rfl, rfl, rfl, rfl⟩

theorem fromDictionary_inv {known : Known} {s s' : PDeser} {deps : List (String × SFeat)} {d : SDef} {f : SFeat}
    (h : fromDictionary known s deps d.args = .ok (f, s')) (hd : ∀ x ∈ deps, Grounded known x.2) : Describes d f ∧ Grounded known f := by
  unfold Describes
  have hf : ∀ {n : String} {g : SFeat}, depFor deps n = .ok g → Grounded known g := fun h => by
    obtain ⟨m, hm⟩ := depFor_mem h
    exact hd _ hm
  have hfs : ∀ {ns : List String} {gs : List SFeat}, depsFor deps ns = .ok gs → ∀ g ∈ gs, Grounded known g := fun h g hg => by
    obtain ⟨m, hm⟩ := (depsFor_mem h).2 g hg
    exact hd _ hm
  split
  · next n v e he =>
    rw [he, fromDictionary] at h
    split at h
    · next hk =>
      cases h
      refine ⟨rfl, grounded_mk (by simp [SFeat.deps, SFeat.bases, SFeat.wh]) ⟨?_, ?_, ?_⟩⟩
      · rintro v' hv; cases hv; exact hk
      · rintro r hr; cases hr
      · rintro _ _ _ hr; cases hr
    · cases h
  · next n b r he =>
    rw [he, fromDictionary] at h
    split at h
    · cases h
    · next g hg =>
      split at h
      · cases h
      · next hk =>
        split at h
        · cases h
          refine ⟨⟨rfl, rfl⟩, grounded_mk (by simpa [SFeat.deps, SFeat.bases, SFeat.wh] using hf hg) ⟨?_, ?_, ?_⟩⟩
          · rintro v' hv; cases hv
          · rintro r' hr; cases hr; exact relKnown_iff.mp (by simpa using hk)
          · rintro _ _ _ hr; cases hr
        · cases h
  · next n bs path pd wh pv he =>
    rw [he, fromDictionary] at h
    split at h
    · cases h
    · next gs hgs =>
      split at h
      · cases h
      · next hk =>
        split at h
        · cases h
        · obtain ⟨p, hp⟩ := withPrim_inv h
          unfold finishAgg at hp
          split at hp
          · cases hp
          · next pv' _ =>
            split at hp
            · cases hp
            · next w hw =>
              obtain ⟨h1, h2, h3, h4⟩ := makeAgg_inv hp
              refine ⟨⟨h2, ⟨p, pv', h1⟩, by rw [h3]; exact (depsFor_mem hgs).1⟩, grounded_mk ?_ ⟨?_, ?_, ?_⟩⟩
              · intro d' hd'
                rw [SFeat.deps, h3, h4] at hd'
                rcases List.mem_append.mp hd' with hd' | hd'
                · exact hfs hgs d' hd'
                · unfold loadWhere at hw
                  split at hw
                  · cases hw; simp at hd'
                  · next m =>
                    cases hm : depFor deps m with
                    | error e => rw [hm] at hw; cases hw
                    | ok y =>
                      rw [hm] at hw
                      cases hw
                      simp only [List.mem_singleton] at hd'
                      subst hd'
                      exact hf hm
              · rw [h1]; rintro v' hv; cases hv
              · rw [h1]; rintro r' hr; cases hr
              · rw [h1]; rintro path' _ _ hr r hrm
                cases hr
                simp only [List.any_eq_true, not_exists, not_and, Bool.not_eq_true, Bool.not_eq_false'] at hk
                exact relKnown_iff.mp (hk r hrm)
  · next n bs pd he =>
    rw [he, fromDictionary] at h
    split at h
    · cases h
    · next gs hgs =>
      obtain ⟨p, hp⟩ := withPrim_inv h
      obtain ⟨h1, h2, h3, h4⟩ := makeTrans_inv hp
      refine ⟨⟨h2, ⟨p, h1⟩, by rw [h3]; exact (depsFor_mem hgs).1⟩, grounded_mk ?_ ⟨?_, ?_, ?_⟩⟩
      · rw [SFeat.deps, h3, h4, List.append_nil]; exact hfs hgs
      all_goals rw [h1]
      · rintro v' hv; cases hv
      · rintro r' hr; cases hr
      · rintro _ _ _ hr; cases hr
  · next n bs pd g he =>
    rw [he, fromDictionary] at h
    split at h
    · cases h
    · next gs hgs =>
      obtain ⟨p, hp⟩ := withPrim_inv h
      split at hp
      · cases hp
      · next g' hg' =>
        obtain ⟨h1, h2, h3, h4⟩ := makeTrans_inv hp
        refine ⟨⟨h2, ⟨p, h1⟩, by rw [h3]; simp [(depsFor_mem hgs).1]⟩, grounded_mk ?_ ⟨?_, ?_, ?_⟩⟩
        · rw [SFeat.deps, h3, h4, List.append_nil]
          intro d' hd'
          rcases List.mem_append.mp hd' with hd' | hd'
          · exact hfs hgs d' hd'
          · simp only [List.mem_singleton] at hd'
            subst hd'
            exact hf hg'
        all_goals rw [h1]
        · rintro v' hv; cases hv
        · rintro r' hr; cases hr
        · rintro _ _ _ hr; cases hr
  · next n b i he =>
    rw [he, fromDictionary] at h
    split at h
    · cases h
    · next g hg =>
      cases h
      refine ⟨⟨rfl, rfl⟩, grounded_mk (by simpa [SFeat.deps, SFeat.bases, SFeat.wh] using hf hg) ⟨?_, ?_, ?_⟩⟩
      · rintro v' hv; cases hv
      · rintro r hr; cases hr
      · rintro _ _ _ hr; cases hr
  · next t he =>
    rw [he, fromDictionary] at h
    cases h

/-- A name and the feature loaded for it. -/
def LoadedAs (known : Known) (defs : List (String × SDef)) (n : String) (f : SFeat) : Prop :=
  (∃ d, defs.lookup n = some d ∧ Describes d f) ∧ Grounded known f

theorem loadDeps_inv {known : Known} {defs : List (String × SDef)} {load : LState → String → Except PyErr (SFeat × LState)}
    (hl : ∀ s n f s', load s n = .ok (f, s') → (∀ m g, s.memo.lookup m = some g → LoadedAs known defs m g) →
      LoadedAs known defs n f ∧ ∀ m g, s'.memo.lookup m = some g → LoadedAs known defs m g) :
    ∀ (ns : List String) (s : LState) fs s', loadDeps load s ns = .ok (fs, s') → (∀ m g, s.memo.lookup m = some g → LoadedAs known defs m g) →
      fs.map Prod.fst = ns ∧ (∀ x ∈ fs, LoadedAs known defs x.1 x.2) ∧ ∀ m g, s'.memo.lookup m = some g → LoadedAs known defs m g
  | [], s, fs, s', h, hs => by cases h; exact ⟨rfl, by simp, hs⟩
  | n :: ns, s, fs, s', h, hs => by
    rw [loadDeps] at h
    split at h
    · cases h
    · next f s1 hf =>
      obtain ⟨h1, h2⟩ := hl _ _ _ _ hf hs
      split at h
      · cases h
      · next fs2 s2 hfs =>
        cases h
        obtain ⟨h3, h4, h5⟩ := loadDeps_inv hl ns s1 fs2 _ hfs h2
        refine ⟨by simp [h3], ?_, h5⟩
        intro x hx
        rcases List.mem_cons.mp hx with rfl | hx
        · exact h1
        · exact h4 x hx

theorem loadFeature_inv {known : Known} {defs : List (String × SDef)} : ∀ (k : Nat) (s : LState) n f s', loadFeature known defs k s n = .ok (f, s') →
    (∀ m g, s.memo.lookup m = some g → LoadedAs known defs m g) → LoadedAs known defs n f ∧ ∀ m g, s'.memo.lookup m = some g → LoadedAs known defs m g
  | 0, _, _, _, _, h, _ => by cases h
  | k + 1, s, n, f, s', h, hs => by
    rw [loadFeature] at h
    split at h
    · next g hg =>
      cases h
      exact ⟨hs _ _ hg, hs⟩
    · split at h
      · cases h
      · next d hd =>
        split at h
        · cases h
        · next deps s1 hdeps =>
          obtain ⟨h1, h2, h3⟩ := loadDeps_inv (loadFeature_inv k) _ _ _ _ hdeps hs
          split at h
          · cases h
          · next f' ps hf =>
            cases h
            have := fromDictionary_inv hf fun x hx => (h2 x hx).2
            have hn : LoadedAs known defs n f := ⟨⟨d, hd, this.1⟩, this.2⟩
            refine ⟨hn, ?_⟩
            intro m g hm
            simp only [List.lookup_cons] at hm
            by_cases e : m = n
            · rw [show (m == n) = true by simpa using e] at hm
              simp only [Option.some.injEq] at hm
              subst hm; subst e
              exact hn
            · rw [show (m == n) = false by simpa using e] at hm
              exact h3 m g hm

end FT
