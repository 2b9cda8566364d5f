import Verif.Lemmas.FeatureFile
/-! # Saving and loading features (C48) -/
namespace FT
open Spec

theorem tell_inj {fs : List SFeat} (h : FullNamesTell fs) :
    ∀ f g, (∃ a ∈ fs, SUses a f) → (∃ a ∈ fs, SUses a g) → f.uname = g.uname → f = g := by
  rintro f g ⟨a, ha, h1⟩ ⟨b, hb, h2⟩ e
  exact h a ha b hb f g h1 h2 e

/-- The file and the recursion depth do not depend on the entity set. -/
theorem roundtrip_height (known : Known) (root : ClassTree) (fs : List SFeat) (htell : FullNamesTell fs)
    (hbuilt : ∀ f ∈ fs, ∀ g, SUses f g → Built known g) (hprim : ∀ f ∈ fs, ∀ g p, SUses f g → HasPrim g p → Storable root p)
    (hgroup : ∀ f ∈ fs, ∀ g, SUses f g → GroupedApart g) :
    ∀ limit, SFeat.heightL fs ≤ limit → loadFeatures known root limit ⟨fs.map SFeat.uname, fs.foldl serializeFeature []⟩ = .ok fs := by
  intro limit hlim
  let U : SFeat → Prop := fun g => ∃ f ∈ fs, SUses f g
  have hinj : ∀ f g, U f → U g → f.uname = g.uname → f = g := tell_inj htell
  have hfrom : FromU U (fs.foldl serializeFeature []) := foldl_serialize_fromU fs ⟨by simp, by simp⟩ fun f hf g hg => ⟨f, hf, hg⟩
  have hclosed := (foldl_serialize_closed (U := U) hinj fs (d := []) (fun f g _ h => by simp at h) fun f hf g hg => ⟨f, hf, hg⟩).2
  have hd : ∀ f, U f → (fs.foldl serializeFeature []).lookup f.uname = some f.toDictionary := by
    rintro f ⟨a, ha, hf⟩
    obtain ⟨x, hx, e⟩ := List.mem_map.mp (hclosed a ha f hf)
    obtain ⟨f', hf', rfl⟩ := hfrom.2 x hx
    have := hinj f' f hf' ⟨a, ha, hf⟩ e
    subst this
    exact lookup_of_mem_nodup hfrom.1 hx
  obtain ⟨s', h1, _⟩ := loadDeps_ok (U := U) (root := root) (load := loadFeature known (fs.foldl serializeFeature []) limit) fs (fun f hf s hs =>
    loadFeature_ok hinj (fun f ⟨a, ha, hf⟩ g hg => ⟨a, ha, hf.trans hg⟩) (fun f ⟨a, ha, hf⟩ => hbuilt a ha f hf)
      (fun f p ⟨a, ha, hf⟩ => hprim a ha f p hf) (fun f ⟨a, ha, hf⟩ => hgroup a ha f hf) hd limit f ⟨f, hf, .self f⟩
      (Nat.le_trans (height_memL hf) hlim) s hs) ⟨[], .new root⟩ ⟨by simp, new_ok root⟩
  unfold loadFeatures
  simp only [h1, List.map_map]
  exact congrArg Except.ok (List.map_id' fs)

/-- C48: features that were saved are loaded again as the same list, definitions and all, given the same entity set and primitives; the
number of frames the recursion needs does not depend on the state. -/
theorem C48_roundtrip_partial (known : Known) (root : ClassTree) (fs : List SFeat) (hne : fs ≠ []) (htell : FullNamesTell fs)
    (hbuilt : ∀ f ∈ fs, ∀ g, SUses f g → Built known g) (hprim : ∀ f ∈ fs, ∀ g p, SUses f g → HasPrim g p → Storable root p)
    (hgroup : ∀ f ∈ fs, ∀ g, SUses f g → GroupedApart g) :
    ∃ file, saveFeatures fs = .ok file ∧ ∃ enough, ∀ limit, enough ≤ limit → loadFeatures known root limit file = .ok fs :=
  ⟨⟨fs.map SFeat.uname, fs.foldl serializeFeature []⟩, by simp [saveFeatures, hne], SFeat.heightL fs,
    roundtrip_height known root fs htell hbuilt hprim hgroup⟩

/-- C48: every feature is stored under its full name, nothing else is, and no feature is stored twice. -/
theorem C48_stored_once (fs : List SFeat) (file : FeatureFile) (h : saveFeatures fs = .ok file) :
    file.featureList = fs.map (fun f => f.entity ++ ": " ++ f.name) ∧ (file.definitions.map Prod.fst).Nodup ∧
      (∀ n ∈ file.definitions.map Prod.fst, ∃ f ∈ fs, ∃ g, SUses f g ∧ n = g.entity ++ ": " ++ g.name) ∧
      (FullNamesTell fs → ∀ f ∈ fs, ∀ g, SUses f g → g.entity ++ ": " ++ g.name ∈ file.definitions.map Prod.fst) := by
  unfold saveFeatures at h
  split at h
  · cases h
  · cases h
    have hfrom : FromU (fun g => ∃ f ∈ fs, SUses f g) (fs.foldl serializeFeature []) :=
      foldl_serialize_fromU fs ⟨by simp, by simp⟩ fun f hf g hg => ⟨f, hf, hg⟩
    refine ⟨rfl, hfrom.1, ?_, ?_⟩
    · intro n hn
      obtain ⟨x, hx, rfl⟩ := List.mem_map.mp hn
      obtain ⟨g, ⟨f, hf, hg⟩, rfl⟩ := hfrom.2 x hx
      exact ⟨f, hf, g, hg, rfl⟩
    · intro ht f hf g hg
      exact (foldl_serialize_closed (tell_inj ht) fs (d := []) (fun f g _ h => by simp at h) fun f hf g hg => ⟨f, hf, hg⟩).2 f hf g hg

/-- C48: whatever the file, a load that succeeds gives one feature for each name on the list, of the class and name the
file says, and refers only to what is in the entity set. -/
theorem C48_loaded (known : Known) (root : ClassTree) (limit : Nat) (file : FeatureFile) (fs : List SFeat)
    (h : loadFeatures known root limit file = .ok fs) :
    fs.length = file.featureList.length ∧ ∀ (i : Nat) n f, file.featureList[i]? = some n → fs[i]? = some f →
      (∃ d, file.definitions.lookup n = some d ∧ Describes d f) ∧ Grounded known f := by
  unfold loadFeatures at h
  split at h
  · cases h
  · next l s hl =>
    cases h
    obtain ⟨h1, h2, _⟩ := loadDeps_inv (loadFeature_inv limit) _ _ _ _ hl (by simp)
    refine ⟨by rw [← h1]; simp, ?_⟩
    intro i n f hn hf
    rw [← h1, List.getElem?_map] at hn
    rw [List.getElem?_map] at hf
    cases hx : l[i]? with
    | none => rw [hx] at hn; cases hn
    | some x =>
      rw [hx] at hn hf
      cases hn; cases hf
      exact h2 x (List.mem_of_getElem? hx)

/-- C48: without features there is nothing to save. -/
theorem C48_empty : saveFeatures [] = .error .indexError := rfl

namespace FeatureFileExample
def rel : Relationship := ⟨"customers", "id", "sessions", "cust"⟩
def known : Known := fun e v => (e == "customers" && v == "id") || (e == "sessions" && (v == "cust" || v == "amount" || v == "device"))
def sumC : PClass := ⟨("Sum", "standard"), 1, []⟩
def nMost : PClass := ⟨("NMostCommon", "standard"), 2, [("n", some (.num 3))]⟩
def equalC : PClass := ⟨("EqualScalar", "standard"), 3, [("value", none)]⟩
def cumC : PClass := ⟨("CumSum", "standard"), 4, []⟩
def root : ClassTree := .node ⟨("PrimitiveBase", "base"), 0, []⟩ [.node sumC [], .node nMost [], .node equalC [], .node cumC []]
def amount : SFeat := .mk (.identity "amount") "sessions" "amount" [] []
def device : SFeat := .mk (.identity "device") "sessions" "device" [] []
def isPc : SFeat := .mk (.trans ⟨equalC, [.str "pc"]⟩) "sessions" "device = pc" [device] []
def total : SFeat := .mk (.agg [rel] ⟨sumC, []⟩ none) "customers" "SUM(sessions.amount WHERE device = pc)" [amount] [isPc]
def common : SFeat := .mk (.agg [rel] ⟨nMost, [.num 5]⟩ none) "customers" "N_MOST_COMMON(sessions.device, n=5)" [device] []
def first : SFeat := .mk (.slice 0) "customers" "N_MOST_COMMON(sessions.device, n=5)[0]" [common] []
def back : SFeat := .mk (.direct rel) "sessions" "customers.SUM(…)" [total] []
def running : SFeat := .mk (.groupby ⟨cumC, []⟩) "sessions" "CUM_SUM(amount) by device" [amount, device] []
/-- A feature grouped by its own input. -/
def odd : SFeat := .mk (.groupby ⟨cumC, []⟩) "sessions" "CUM_SUM(amount) by amount" [amount, amount] []
def fs : List SFeat := [back, first, running]

theorem uses_fs (f g : SFeat) (hf : f ∈ fs) (h : SUses f g) : g ∈ [back, total, amount, isPc, device, first, common, running] := by
  rw [suses_iff] at h
  simp only [fs, List.mem_cons, List.not_mem_nil, or_false] at hf
  rcases hf with rfl | rfl | rfl <;>
    simp only [back, first, running, total, common, isPc, amount, device, SFeat.deepDeps, SFeat.deepDepsL, List.nil_append, List.append_nil,
      List.cons_append, List.mem_cons, List.not_mem_nil, or_false] at h ⊢ <;> grind

/-- The hypotheses of the round trip are met by a list with all classes of features. -/
example : fs ≠ [] ∧ FullNamesTell fs ∧ (∀ f ∈ fs, ∀ g, SUses f g → Built known g) ∧ (∀ f ∈ fs, ∀ g, SUses f g → GroupedApart g) := by
  refine ⟨by simp [fs], ?_, ?_, ?_⟩
  · intro f hf f' hf' g g' h h' e
    have h1 := uses_fs f g hf h
    have h2 := uses_fs f' g' hf' h'
    simp only [List.mem_cons, List.not_mem_nil, or_false] at h1 h2
    rcases h1 with rfl | rfl | rfl | rfl | rfl | rfl | rfl | rfl <;> rcases h2 with rfl | rfl | rfl | rfl | rfl | rfl | rfl | rfl <;>
      first | rfl | exact absurd e (by decide)
  · intro f hf g h
    have h1 := uses_fs f g hf h
    simp only [List.mem_cons, List.not_mem_nil, or_false] at h1
    rcases h1 with rfl | rfl | rfl | rfl | rfl | rfl | rfl | rfl
    · exact ⟨_, rfl, rfl, rfl, rfl, by decide, by decide⟩
    · exact ⟨by simp [total, SFeat.bases], by decide, ⟨rel, rfl, rfl⟩, ⟨rel, rfl, by simp [total, SFeat.bases, amount, SFeat.entity, rel],
        by simp [total, SFeat.wh, isPc, SFeat.entity, rel]⟩, by simp [RelThere]; decide, by simp⟩
    · exact ⟨rfl, rfl, by decide⟩
    · exact ⟨by simp [isPc, SFeat.bases], rfl, by simp [isPc, SFeat.bases, device, SFeat.entity]⟩
    · exact ⟨rfl, rfl, by decide⟩
    · exact ⟨_, rfl, rfl, rfl⟩
    · exact ⟨by simp [common, SFeat.bases], by decide, ⟨rel, rfl, rfl⟩, ⟨rel, rfl, by simp [common, SFeat.bases, device, SFeat.entity, rel],
        by simp [common, SFeat.wh]⟩, by simp [RelThere]; decide, by simp⟩
    · exact ⟨by simp [running, SFeat.bases], rfl, by simp [running, SFeat.bases, device, amount, SFeat.entity]⟩
  · intro f hf g h p init x hk hb
    have h1 := uses_fs f g hf h
    simp only [List.mem_cons, List.not_mem_nil, or_false] at h1
    rcases h1 with rfl | rfl | rfl | rfl | rfl | rfl | rfl | rfl <;> first | cases hk | skip
    match init, hb with
    | [a], hb =>
      cases hb
      simp only [List.mem_singleton]
      intro e
      exact absurd (congrArg SFeat.name e) (by decide)
    | _ :: _ :: init, hb => simp [running, SFeat.bases] at hb

example : ∀ f ∈ fs, ∀ g p, SUses f g → HasPrim g p → Storable root p := by
  intro f hf g p h hp
  have h1 := uses_fs f g hf h
  have key : p ∈ [⟨sumC, []⟩, ⟨nMost, [.num 5]⟩, ⟨equalC, [.str "pc"]⟩, (⟨cumC, []⟩ : PInst)] := by
    simp only [List.mem_cons, List.not_mem_nil, or_false] at h1
    rcases h1 with rfl | rfl | rfl | rfl | rfl | rfl | rfl | rfl <;> rcases hp with ⟨_, _, hp⟩ | hp | hp <;> cases hp <;> simp
  simp only [List.mem_cons, List.not_mem_nil, or_false] at key
  simp only [Storable, ← mem_descendants]
  rcases key with rfl | rfl | rfl | rfl <;> refine ⟨by decide, by decide, by decide, by decide, ?_⟩ <;> intro i n d b h1 h2 <;>
    match i with
    | 0 => simp [sumC, cumC, nMost, equalC] at h1 h2
    | i + 1 => simp [sumC, cumC, nMost, equalC] at h1 h2

/-- Two different features of one full name: an entity id may contain the separator. -/
def one : SFeat := .mk (.identity "b: c") "a" "b: c" [] []
def other : SFeat := .mk (.identity "c") "a: b" "c" [] []
end FeatureFileExample
open FeatureFileExample

/-- C48: a group-by feature whose group-by feature is also its input cannot be loaded again: the input is left out. -/
theorem C48_groupby_violated :
    Built known odd ∧ ∃ file, saveFeatures [odd] = .ok file ∧ ∃ f, loadFeatures known root 10 file = .ok [f] ∧ f.bases = [amount] ∧ odd.bases = [amount, amount] :=
  ⟨⟨by simp [odd, SFeat.bases], rfl, by simp [odd, SFeat.bases, amount, SFeat.entity]⟩, _, rfl, _, rfl, rfl, rfl⟩

/-- C48: two features with one full name come back as one. -/
theorem C48_names_violated :
    ∃ file, saveFeatures [one, other] = .ok file ∧ loadFeatures (fun e v => (e == "a" && v == "b: c") || (e == "a: b" && v == "c")) root 10 file = .ok [one, one] ∧
      one ≠ other :=
  ⟨_, rfl, rfl, fun h => absurd (congrArg SFeat.entity h) (by decide)⟩

end FT
