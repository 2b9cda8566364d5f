import Verif.Spec.Places
import Verif.Props.Disk
/-! # Properties of where entity sets and features are saved: C90 -/
namespace FT
open Spec

theorem prefix_iff (s t : String) : t.toList.isPrefixOf s.toList = true ↔ StartsWith s t := by
  rw [List.isPrefixOf_iff_prefix]
  constructor
  · rintro ⟨r, hr⟩
    exact ⟨String.ofList r, by apply String.toList_injective; simp [hr]⟩
  · rintro ⟨r, rfl⟩
    exact ⟨r.toList, by simp⟩

theorem suffix_iff (s t : String) : t.toList.isSuffixOf s.toList = true ↔ EndsWith s t := by
  rw [List.isSuffixOf_iff_suffix]
  constructor
  · rintro ⟨r, hr⟩
    exact ⟨String.ofList r, by apply String.toList_injective; simp [hr]⟩
  · rintro ⟨r, rfl⟩
    exact ⟨r.toList, by simp⟩

theorem isS3_iff (p : String) : isS3 p = true ↔ StartsWith p "s3://" := prefix_iff p _
theorem isUrl_iff (p : String) : isUrl p = true ↔ StartsWith p "http" := prefix_iff p _
theorem isTarName_iff (p : String) : isTarName p = true ↔ EndsWith p ".tar" := suffix_iff p _

theorem s3_not_url {p : String} (h : isS3 p = true) : isUrl p = false := by
  rw [isS3_iff] at h
  obtain ⟨r, rfl⟩ := h
  simp [isUrl, List.isPrefixOf]

theorem saved_steps {β : Type} {codec : Codec β} {format : String} {es : ESet} {steps : List (DiskStep β)}
    (hs : saveEntityset codec format es = .ok steps) : steps = dumpSteps codec format es := by
  unfold saveEntityset at hs
  split at hs
  · cases hs; rfl
  · cases hs

theorem packed_location {β : Type} (d : Disk β) (id format : String) : packed d (location id format) = d (location id format) := by
  unfold packed
  rw [if_pos]
  rw [Bool.or_eq_true]
  exact .inr ((prefix_iff _ _).mpr ⟨id ++ ("." ++ format), rfl⟩)

theorem packed_description {β : Type} (d : Disk β) : packed d descriptionFile = d descriptionFile := by
  unfold packed
  rw [if_pos (by simp)]

/-- **C90.** An entity set that was written, to a directory or to S3, is read from the same place, whatever was there before.
Missing: directories named like an archive, see `C90_tar_directory_violated`. -/
theorem C90_read_back_partial {β : Type} (codec : Codec β) (hl : Lawful codec) (format : String) (es : ESet) (hk : Kept codec format es)
    (hn : (es.entities.map Entity.id).Nodup) (path : String) (p p' : Places β) (h : writeTo codec format es path p = (p', none))
    (ht : EndsWith path ".tar" → StartsWith path "s3://") : ∃ r, readFrom codec path p' = some r ∧ IsSaved r es := by
  unfold writeTo at h
  split at h
  · rename_i h3
    split at h
    · cases h
    · rename_i steps hs
      cases h
      rw [saved_steps hs]
      obtain ⟨h1, h2⟩ := run_dump (codec := codec) (format := format) hn (fun _ => none)
      obtain ⟨r, hr, hr'⟩ := readSaved_ok hl hk hn (d := packed (runSteps (fun _ => none) (dumpSteps codec format es)))
        (by rw [packed_description]; exact h1) (fun x hx => by rw [packed_location]; exact h2 x hx)
      refine ⟨r, ?_, hr'⟩
      unfold readFrom
      rw [if_pos (by simp [h3])]
      simp [putAt, hr]
  · rename_i h3
    split at h
    · cases h
    · rename_i hu
      split at h
      · cases h
      · split at h
        · cases h
        · rename_i steps hs
          cases h
          rw [saved_steps hs]
          obtain ⟨h1, h2⟩ := run_dump (codec := codec) (format := format) hn ((p.dirs path).getD fun _ => none)
          obtain ⟨r, hr, hr'⟩ := readSaved_ok hl hk hn h1 h2
          refine ⟨r, ?_, hr'⟩
          unfold readFrom
          rw [if_neg (by simp [h3, hu]), if_neg (fun h => h3 ((isS3_iff _).mpr (ht ((isTarName_iff _).mp h))))]
          simp [putAt, hr]

/-- **C90.** Writing succeeds exactly for the formats offered, at places that are not URLs and where there is no file. -/
theorem C90_written_iff {β : Type} (codec : Codec β) (format : String) (es : ESet) (path : String) (p : Places β) :
    (writeTo codec format es path p).2 = none ↔
      (es.entities = [] ∨ format = "csv" ∨ format = "pickle" ∨ format = "parquet") ∧ ¬ StartsWith path "http" ∧
        (StartsWith path "s3://" ∨ p.tars path = none) := by
  have hf : (es.entities.isEmpty || formats.contains format) = true ↔ (es.entities = [] ∨ format = "csv" ∨ format = "pickle" ∨ format = "parquet") := by
    simp [formats]
  rw [← hf, ← isUrl_iff, ← isS3_iff]
  unfold writeTo saveEntityset
  by_cases h3 : isS3 path = true
  · rw [if_pos h3]
    by_cases hb : (es.entities.isEmpty || formats.contains format) = true
    · rw [if_pos hb]; simp only [hb, h3, s3_not_url h3]; simp
    · simp only [hb]
      simp
  · rw [if_neg h3]
    by_cases hu : isUrl path = true
    · simp [hu]
    · rw [if_neg hu]
      cases ht : p.tars path with
      | some a => simp [h3]
      | none =>
        by_cases hb : (es.entities.isEmpty || formats.contains format) = true
        · rw [if_pos hb]; simp only [hb, hu]; simp
        · simp only [hb]
          simp

/-- **C90.** Writing changes nothing at other places: what is read from them is as before; and archives on the disk stay as
they are. -/
theorem C90_elsewhere {β : Type} (codec : Codec β) (format : String) (es : ESet) (path : String) (p : Places β) :
    (∀ q, q ≠ path → readFrom codec q (writeTo codec format es path p).1 = readFrom codec q p) ∧
      (writeTo codec format es path p).1.tars = p.tars := by
  have key : (∀ q, q ≠ path → (writeTo codec format es path p).1.remote q = p.remote q ∧ (writeTo codec format es path p).1.dirs q = p.dirs q) ∧
      (writeTo codec format es path p).1.tars = p.tars := by
    unfold writeTo
    split
    · split
      · exact ⟨fun _ _ => ⟨rfl, rfl⟩, rfl⟩
      · exact ⟨fun q hq => ⟨if_neg hq, rfl⟩, rfl⟩
    · split
      · exact ⟨fun _ _ => ⟨rfl, rfl⟩, rfl⟩
      · split
        · exact ⟨fun _ _ => ⟨rfl, rfl⟩, rfl⟩
        · split
          · exact ⟨fun q hq => ⟨rfl, if_neg hq⟩, rfl⟩
          · exact ⟨fun q hq => ⟨rfl, if_neg hq⟩, rfl⟩
  refine ⟨fun q hq => ?_, key.2⟩
  unfold readFrom
  rw [(key.1 q hq).1, (key.1 q hq).2, key.2]

/-- **C90.** An archive written to S3 and copied to the disk, under a name that ends in `.tar`, is read like the original. -/
theorem C90_copied {β : Type} (codec : Codec β) (hl : Lawful codec) (format : String) (es : ESet) (hk : Kept codec format es)
    (hn : (es.entities.map Entity.id).Nodup) (path copy : String) (p p' q : Places β) (h : writeTo codec format es path p = (p', none))
    (h3 : StartsWith path "s3://") (hq : q.tars copy = p'.remote path) (hd : q.dirs copy = none) (ht : EndsWith copy ".tar")
    (hc : ¬ StartsWith copy "http" ∧ ¬ StartsWith copy "s3://") : ∃ r, readFrom codec copy q = some r ∧ IsSaved r es := by
  obtain ⟨r, hr, hr'⟩ := C90_read_back_partial codec hl format es hk hn path p p' h fun _ => h3
  refine ⟨r, ?_, hr'⟩
  rw [← isUrl_iff, ← isS3_iff] at hc
  unfold readFrom at hr ⊢
  rw [if_pos (by simp [(isS3_iff _).mpr h3])] at hr
  rw [if_neg (by simp [hc]), if_pos ((isTarName_iff _).mpr ht), hd, hq]
  exact hr

/-- **C90.** Features saved as text are loaded from that text. -/
theorem C90_features_text (json : JsonLib) (f : FeatureFile) (hj : JsonKeeps json f) (p q : TextPlaces) :
    ∃ t, saveAt json f none p = (p, .ok (some t)) ∧ loadText json t q = some f := by
  refine ⟨json.dumps f, rfl, ?_⟩
  unfold loadText
  rw [hj]
  rfl

/-- **C90.** Features saved at a location are loaded from there. Missing: locations that are themselves JSON, see
`C90_features_location_violated`. -/
theorem C90_features_file_partial (json : JsonLib) (f : FeatureFile) (hj : JsonKeeps json f) (path : String) (p p' : TextPlaces)
    (h : saveAt json f (some path) p = (p', .ok none)) (hp : json.loads path = none) : loadText json path p' = some f := by
  unfold saveAt at h
  simp only at h
  unfold loadText
  rw [hp]
  split at h
  · cases h
  · rename_i hu
    split at h
    · rename_i h3
      cases h
      simp [h3, putAt, show json.loads (json.dumps f) = _ from hj, asFeatures]
    · rename_i h3
      cases h
      simp [h3, hu, putAt, show json.loads (json.dumps f) = _ from hj, asFeatures]

/-- **C90.** Saving features is refused exactly at URLs, and changes nothing at other places. -/
theorem C90_features_refused (json : JsonLib) (f : FeatureFile) (path : String) (p : TextPlaces) :
    ((saveAt json f (some path) p).2 = .error .valueError ↔ StartsWith path "http") ∧
    (¬ StartsWith path "http" → (saveAt json f (some path) p).2 = .ok none) ∧
    ∀ q, q ≠ path → (saveAt json f (some path) p).1.files q = p.files q ∧ (saveAt json f (some path) p).1.remote q = p.remote q := by
  rw [← isUrl_iff]
  unfold saveAt
  simp only
  by_cases hu : isUrl path = true
  · simp [hu]
  · by_cases h3 : isS3 path = true
    · rw [if_neg hu, if_pos h3]
      exact ⟨by simp [hu], fun _ => rfl, fun q hq => ⟨rfl, if_neg hq⟩⟩
    · rw [if_neg hu, if_neg h3]
      exact ⟨by simp [hu], fun _ => rfl, fun q hq => ⟨if_neg hq, rfl⟩⟩

namespace PlaceExample
def nowhere {β : Type} : Places β := { dirs := fun _ => none, tars := fun _ => none, remote := fun _ => none }
/-- JSON whose texts start with `{`, and numbers. -/
def json : JsonLib where
  dumps f := "{" ++ toString f.featureList.length
  loads t := if t = "2020" then some .other else if t = "{1" then some (.features ⟨["a"], []⟩) else none
end PlaceExample

open PlaceExample in
/-- The hypotheses are met: written to a directory and to S3. -/
example : Lawful DiskExample.codec ∧ Kept DiskExample.codec "csv" SerExample.es ∧ (SerExample.es.entities.map Entity.id).Nodup ∧
    (writeTo DiskExample.codec "csv" SerExample.es "/home/es" nowhere).2 = none ∧ ¬ EndsWith "/home/es" ".tar" ∧
    (writeTo DiskExample.codec "csv" SerExample.es "s3://bucket/es.tar" nowhere).2 = none ∧ StartsWith "s3://bucket/es.tar" "s3://" := by
  refine ⟨DiskExample.lawful, DiskExample.kept _ _, by decide, rfl, fun h => ?_, rfl, ⟨"bucket/es.tar", rfl⟩⟩
  have := (isTarName_iff _).mpr h
  revert this
  decide

open PlaceExample in
/-- The hypotheses for features are met. -/
example : JsonKeeps json ⟨["a"], []⟩ ∧ (saveAt json ⟨["a"], []⟩ (some "features.json") ⟨fun _ => none, fun _ => none⟩).2 = .ok none ∧
    json.loads "features.json" = none := ⟨rfl, rfl, rfl⟩

/-- **C90 is violated** by directories whose name starts with `http`: they count as URLs, and nothing can be saved there. -/
theorem C90_http_directory_violated {β : Type} (codec : Codec β) (format : String) (es : ESet) (json : JsonLib) (f : FeatureFile) (p : Places β) (q : TextPlaces) :
    writeTo codec format es "httpd_logs/es" p = (p, some .valueError) ∧ saveAt json f (some "http_features.json") q = (q, .error .valueError) := ⟨rfl, rfl⟩

open PlaceExample in
/-- **C90 is violated** by directories whose name ends in `.tar`: an entity set is saved there, and cannot be read. -/
theorem C90_tar_directory_violated {β : Type} (codec : Codec β) (es : ESet) :
    (writeTo codec "csv" es "/home/es.tar" nowhere).2 = none ∧
      readFrom codec "/home/es.tar" (writeTo codec "csv" es "/home/es.tar" nowhere).1 = none := by
  have h1 : isS3 "/home/es.tar" = false := by decide
  have h2 : isUrl "/home/es.tar" = false := by decide
  have h3 : isTarName "/home/es.tar" = true := by decide
  have h4 : saveEntityset codec "csv" es = .ok (dumpSteps codec "csv" es) := by
    unfold saveEntityset
    rw [if_pos (by simp [formats])]
  constructor
  · simp [writeTo, h1, h2, h4, nowhere]
  · simp [writeTo, readFrom, h1, h2, h3, h4, nowhere, putAt]

/-- **C90 is violated** by locations that are themselves JSON, such as `2020`: saving succeeds, and loading takes the name for
the features. -/
theorem C90_features_location_violated (json : JsonLib) (h : json.loads "2020" = some .other) (f : FeatureFile) (p : TextPlaces) :
    (saveAt json f (some "2020") p).2 = .ok none ∧ loadText json "2020" (saveAt json f (some "2020") p).1 = none := by
  refine ⟨rfl, ?_⟩
  unfold loadText
  rw [h]
  rfl

end FT
