import Verif.Lemmas.FeatureRead
import Verif.Props.FeatureFile
/-! # Reading any file of features: C48 -/
namespace FT
open Spec

theorem loadFeatures_pairs {known : Known} {root : ClassTree} {limit : Nat} {file : FeatureFile} {fs : List SFeat}
    (h : loadFeatures known root limit file = .ok fs) :
    ∃ l : List (String × SFeat), l.map Prod.fst = file.featureList ∧ l.map Prod.snd = fs ∧
      ∀ x ∈ l, FileSays file.definitions x.1 x.2 ∧ Fillable file.definitions x.1 := by
  unfold loadFeatures at h
  split at h
  · cases h
  · next l s hl =>
    cases h
    obtain ⟨h1, h2, _⟩ := loadDeps_gen (R := fun n f => Grounded known f ∧ FileSays file.definitions n f ∧ Fillable file.definitions n)
      (loadFeature_reads known file.definitions limit) _ _ _ _ hl (by simp)
    exact ⟨l, h1, rfl, fun x hx => (h2 x hx).2⟩

/-- **C48.** Whatever file is loaded, if there is a result it has one feature for each name in the list, in its order, and each is
the feature the file describes under that name, through all its base features and conditions. -/
theorem C48_any_file (known : Known) (root : ClassTree) (limit : Nat) (file : FeatureFile) (fs : List SFeat)
    (h : loadFeatures known root limit file = .ok fs) :
    fs.length = file.featureList.length ∧
      ∀ (i : Nat) n f, file.featureList[i]? = some n → fs[i]? = some f → FileSays file.definitions n f := by
  obtain ⟨l, h1, h2, h3⟩ := loadFeatures_pairs h
  refine ⟨by rw [← h1, ← h2]; simp, ?_⟩
  intro i n f hn hf
  rw [← h1, List.getElem?_map] at hn
  rw [← h2, List.getElem?_map] at hf
  cases hx : l[i]? with
  | none => rw [hx] at hn; cases hn
  | some x =>
    rw [hx] at hn hf
    cases hn; cases hf
    exact (h3 x (List.mem_of_getElem? hx)).1

/-- **C48.** A damaged file is refused: if a definition that a listed feature is, or needs at some depth, is missing or needs
itself, loading raises an error, whatever the entity set, the primitives and the recursion limit; nothing is loaded in part. -/
theorem C48_damaged_refused (known : Known) (root : ClassTree) (limit : Nat) (file : FeatureFile) (n m : String)
    (hn : n ∈ file.featureList) (hm : m = n ∨ FileNeeds file.definitions n m)
    (hbad : file.definitions.lookup m = none ∨ FileNeeds file.definitions m m) :
    ∃ e, loadFeatures known root limit file = .error e := by
  cases h : loadFeatures known root limit file with
  | error e => exact ⟨e, rfl⟩
  | ok fs =>
    obtain ⟨l, h1, _, h3⟩ := loadFeatures_pairs h
    rw [← h1] at hn
    obtain ⟨x, hx, rfl⟩ := List.mem_map.mp hn
    have hf := (h3 x hx).2
    have hfm : Fillable file.definitions m := by
      rcases hm with rfl | hm
      · exact hf
      · exact fillable_needs hf hm
    rcases hbad with hb | hb
    · cases hfm with
      | mk h _ => rw [hb] at h; cases h
    · exact absurd hb (fillable_acyclic hfm)

namespace FeatureReadExample
open FeatureFileExample

def file : FeatureFile := ⟨fs.map SFeat.uname, fs.foldl serializeFeature []⟩
/-- The file without the definition of one feature that is used at depth two. -/
def torn : FeatureFile := { file with definitions := file.definitions.filter fun x => x.1 != "sessions: device = pc" }
/-- Two features that are each other's base feature. -/
def loop : FeatureFile := ⟨["a: x"], [("a: x", ⟨["a: y"], .trans "x" ["a: y"] (serializePrimitive ⟨cumC, []⟩)⟩),
  ("a: y", ⟨["a: x"], .trans "y" ["a: x"] (serializePrimitive ⟨cumC, []⟩)⟩)]⟩

end FeatureReadExample

open FeatureFileExample FeatureReadExample in
/-- A file with all classes of features is loaded. -/
example : loadFeatures known root 10 file = .ok fs := by rfl

open FeatureFileExample FeatureReadExample in
/-- The hypotheses of `C48_damaged_refused` are met by a file from which a definition is lost, and by one that goes round. -/
example : (∃ n ∈ torn.featureList, FileNeeds torn.definitions n "sessions: device = pc" ∧ torn.definitions.lookup "sessions: device = pc" = none) ∧
    (∃ n ∈ loop.featureList, FileNeeds loop.definitions n n) ∧
    loadFeatures known root 100 torn = .error .keyError := by
  refine ⟨⟨back.uname, by decide, ?_, by decide⟩, ⟨"a: x", by decide, ?_⟩, by rfl⟩
  · exact .through (m := total.uname) (d := back.toDictionary) (by decide) (by decide)
      (.direct (d := total.toDictionary) (by decide) (by decide))
  · exact .through (m := "a: y") (d := ⟨["a: y"], .trans "x" ["a: y"] (serializePrimitive ⟨cumC, []⟩)⟩) (by decide) (by decide)
      (.direct (d := ⟨["a: x"], .trans "y" ["a: x"] (serializePrimitive ⟨cumC, []⟩)⟩) (by decide) (by decide))

end FT
