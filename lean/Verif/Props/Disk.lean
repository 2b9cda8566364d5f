import Verif.Lemmas.Disk
import Verif.Props.Serialize
/-! # C16, C36: crashes while saving entity sets and progress -/
namespace FT
open Spec

/-! ### C16 -/

/-- **C16.** In a directory without a saved entity set, other files or not, a crash at any point of saving leaves something
that cannot be read, and when saving is done what is read is the entity set. -/
theorem C16_fresh {β : Type} (codec : Codec β) (hl : Lawful codec) (format : String) (es : ESet) (hk : Kept codec format es)
    (hn : (es.entities.map Entity.id).Nodup) (steps : List (DiskStep β)) (hs : saveEntityset codec format es = .ok steps) (d : Disk β)
    (hd : d "data_description.json" = none) (k : Nat) :
    (k < steps.length → readSaved codec (runSteps d (steps.take k)) = none) ∧
    (steps.length ≤ k → ∃ r, readSaved codec (runSteps d (steps.take k)) = some r ∧ IsSaved r es) := by
  have he : steps = dumpSteps codec format es := by
    unfold saveEntityset at hs
    split at hs
    · cases hs; rfl
    · cases hs
  subst he
  constructor
  · intro hk'
    rcases take_dump (codec := codec) (format := format) (es := es) k d with ⟨st, h1, h2, _⟩ | ⟨j, hj, h2⟩
    · rw [h2]
      unfold readSaved
      rw [dataSteps_desc h1]
      have : descriptionFile = "data_description.json" := rfl
      rw [this, hd]
    · rw [h2]
      apply read_cut hl
      rw [dumpSteps_eq] at hk'
      simp only [List.length_append, writeFile, List.length_cons, List.length_map] at hk'
      omega
  · intro hk'
    rw [List.take_of_length_le hk']
    obtain ⟨h1, h2⟩ := run_dump (codec := codec) (format := format) hn d
    exact readSaved_ok hl hk hn h1 h2

/-- **C16.** Saving refuses only formats that are not offered, and then writes nothing. -/
theorem C16_refused {β : Type} (codec : Codec β) (format : String) (es : ESet) :
    (∃ steps, saveEntityset codec format es = .ok steps) ∨
    (saveEntityset codec format es = .error .valueError ∧ es.entities ≠ [] ∧ format ≠ "csv" ∧ format ≠ "pickle" ∧ format ≠ "parquet") := by
  unfold saveEntityset
  split
  · exact .inl ⟨_, rfl⟩
  · rename_i h
    right
    simp only [Bool.or_eq_true, List.isEmpty_iff, not_or] at h
    have h2 := h.2
    simp only [formats, List.contains_iff_mem, List.mem_cons, List.not_mem_nil, or_false, not_or] at h2
    exact ⟨rfl, h.1, h2⟩

/-- **C16.** When an entity set is saved over another and no file of the old one is reused (say, another format), a crash
leaves the complete old one, the complete new one, or something that cannot be read. Missing: reused files, see
`C16_overwrite_violated`. -/
theorem C16_overwrite_partial {β : Type} (codec : Codec β) (hl : Lawful codec) (format format' : String) (old new : ESet) (hk : Kept codec format old)
    (hk' : Kept codec format' new) (hn : (old.entities.map Entity.id).Nodup) (hn' : (new.entities.map Entity.id).Nodup)
    (hdis : ∀ x ∈ old.entities, ∀ y ∈ new.entities, "data/" ++ (x.id ++ ("." ++ format)) ≠ "data/" ++ (y.id ++ ("." ++ format')))
    (steps steps' : List (DiskStep β)) (hs : saveEntityset codec format old = .ok steps) (hs' : saveEntityset codec format' new = .ok steps')
    (d : Disk β) (k : Nat) :
    readSaved codec (runSteps (runSteps d steps) (steps'.take k)) = none ∨
      ∃ r, readSaved codec (runSteps (runSteps d steps) (steps'.take k)) = some r ∧ (IsSaved r old ∨ IsSaved r new) := by
  have he : steps = dumpSteps codec format old := by
    unfold saveEntityset at hs
    split at hs
    · cases hs; rfl
    · cases hs
  have he' : steps' = dumpSteps codec format' new := by
    unfold saveEntityset at hs'
    split at hs'
    · cases hs'; rfl
    · cases hs'
  subst he he'
  rcases take_dump (codec := codec) (format := format') (es := new) k (runSteps d (dumpSteps codec format old)) with ⟨st, h1, h2, _⟩ | ⟨j, hj, h2⟩
  · rw [h2]
    right
    obtain ⟨g1, g2⟩ := run_dump (codec := codec) (format := format) hn d
    obtain ⟨r, hr, hrs⟩ := readSaved_ok hl hk hn (d := runSteps (runSteps d (dumpSteps codec format old)) st) (by rw [dataSteps_desc h1, g1]) (fun x hx => by
      rw [runSteps_untouched, g2 x hx]
      intro s hs ht
      obtain ⟨y, hy, he⟩ := dataSteps_touches (h1 s hs) ht
      exact hdis x hx y hy he)
    exact ⟨r, hr, .inl hrs⟩
  · by_cases hlt : j < (codec.dump (savedOf new format')).length
    · left
      rw [h2]
      exact read_cut hl _ hlt
    · right
      rw [h2, List.take_of_length_le (by omega), ← runSteps_append, ← dumpSteps_eq]
      obtain ⟨g1, g2⟩ := run_dump (codec := codec) (format := format') hn' (runSteps d (dumpSteps codec format old))
      obtain ⟨r, hr, hrs⟩ := readSaved_ok hl hk' hn' g1 g2
      exact ⟨r, hr, .inr hrs⟩

namespace DiskExample

/-- An encoding whose bytes are whole descriptions and frames, between brackets. -/
def codec : Codec (Option (Saved ⊕ DataFrame)) where
  dump s := [none, some (.inl s), none]
  load
    | [none, some (.inl s), none] => some s
    | _ => none
  write _ f := [some (.inr f), none]
  read _ _
    | [some (.inr f), none] => some f
    | _ => none

theorem lawful : Lawful codec := by
  refine ⟨fun s => rfl, fun s bytes hp hne => ?_⟩
  obtain ⟨t, ht⟩ := hp
  match bytes, ht with
  | [], _ => rfl
  | [a], ht =>
    have h1 : a = none := (List.cons.inj ht).1
    rw [h1]
    rfl
  | [a, b], ht =>
    have h1 : a = none := (List.cons.inj ht).1
    have h2 : b = some (.inl s) := (List.cons.inj (List.cons.inj ht).2).1
    rw [h1, h2]
    rfl
  | [a, b, c], ht =>
    have : t = [] := by
      have := congrArg List.length ht
      simp [codec] at this
      exact this
    subst this
    exact absurd (by simpa using ht) hne
  | a :: b :: c :: e :: rest, ht =>
    have := congrArg List.length ht
    simp [codec] at this

theorem kept (format : String) (es : ESet) : Kept codec format es := fun _ _ => rfl

/-- The same entity set with other data. -/
def other (es : ESet) : ESet := { es with entities := es.entities.map fun x => { x with df := { x.df with rows := [] } } }

end DiskExample

/-- The conditions are met: the two entities of the example are saved in ten steps to a new directory. -/
example : Lawful DiskExample.codec ∧ Kept DiskExample.codec "csv" SerExample.es ∧ (SerExample.es.entities.map Entity.id).Nodup ∧
    (saveEntityset DiskExample.codec "csv" SerExample.es).toOption.map List.length = some 10 :=
  ⟨DiskExample.lawful, DiskExample.kept _ _, by decide, rfl⟩

/-- Saving again in another format reuses no files. -/
example : ∀ x ∈ SerExample.es.entities, ∀ y ∈ SerExample.es.entities, "data/" ++ (x.id ++ ("." ++ "csv")) ≠ "data/" ++ (y.id ++ ("." ++ "pickle")) := by
  decide

/-- **C16 is violated** when an entity set is saved over another in the same format: after a crash once the data of the first
entity is written, reading gives the new data of that entity with the old data of the others. This holds for every encoding. -/
theorem C16_overwrite_violated {β : Type} (codec : Codec β) (hl : Lawful codec) (hk : Kept codec "csv" SerExample.es)
    (hk' : ∀ x ∈ SerExample.es.entities, codec.read "csv" (describeEntity x) (codec.write "csv" { x.df with rows := [] }) = some { x.df with rows := [] })
    (d : Disk β) :
    ∃ steps steps', saveEntityset codec "csv" SerExample.es = .ok steps ∧ saveEntityset codec "csv" (DiskExample.other SerExample.es) = .ok steps' ∧
      ∃ k r, readSaved codec (runSteps (runSteps d steps) (steps'.take k)) = some r ∧ ¬ IsSaved r SerExample.es ∧ ¬ IsSaved r (DiskExample.other SerExample.es) := by
  refine ⟨_, _, rfl, rfl, (codec.write "csv" { SerExample.orders.df with rows := [] }).length + 1,
    (describe SerExample.es, [("custs", SerExample.custs.df), ("orders", { SerExample.orders.df with rows := [] })]), ?_, ?_, ?_⟩
  · have hst : (dumpSteps codec "csv" (DiskExample.other SerExample.es)).take ((codec.write "csv" { SerExample.orders.df with rows := [] }).length + 1) =
        writeFile (location "orders" "csv") (codec.write "csv" { SerExample.orders.df with rows := [] }) := by
      rw [dumpSteps_eq]
      have : dataSteps codec "csv" (DiskExample.other SerExample.es).entities =
          writeFile (location "orders" "csv") (codec.write "csv" { SerExample.orders.df with rows := [] }) ++
          dataSteps codec "csv" [{ SerExample.custs with df := { SerExample.custs.df with rows := [] } }] := rfl
      rw [this, List.append_assoc]
      exact List.take_left' (by simp [writeFile])
    rw [hst]
    obtain ⟨g1, g2⟩ := run_dump (codec := codec) (format := "csv") (es := SerExample.es) (by decide) d
    have hdesc : runSteps (runSteps d (dumpSteps codec "csv" SerExample.es)) (writeFile (location "orders" "csv") (codec.write "csv" { SerExample.orders.df with rows := [] }))
        descriptionFile = some (codec.dump (savedOf SerExample.es "csv")) := by
      rw [runSteps_untouched, g1]
      intro s hs ht
      exact location_ne _ _ (writeFile_touches hs ht).symm
    have hcust : runSteps (runSteps d (dumpSteps codec "csv" SerExample.es)) (writeFile (location "orders" "csv") (codec.write "csv" { SerExample.orders.df with rows := [] }))
        (location "custs" "csv") = some (codec.write "csv" SerExample.custs.df) := by
      rw [runSteps_untouched]
      · exact g2 SerExample.custs (by simp [SerExample.es])
      · intro s hs ht
        exact absurd (writeFile_touches hs ht) (by decide)
    unfold readSaved
    rw [hdesc]
    simp only [hl.whole]
    have hd : (savedOf SerExample.es "csv").desc.entities = [describeEntity SerExample.custs, describeEntity SerExample.orders] := by
      show (describe SerExample.es).entities = _
      rw [describe_byId]
      have : byId SerExample.es.entities = [SerExample.custs, SerExample.orders] := rfl
      rw [this]; rfl
    have r1 : ∀ d' : Disk β, d' (location "custs" "csv") = some (codec.write "csv" SerExample.custs.df) →
        readData codec d' (savedOf SerExample.es "csv") (describeEntity SerExample.custs) = some SerExample.custs.df := by
      intro d' h
      unfold readData
      have : (savedOf SerExample.es "csv").loading.lookup (describeEntity SerExample.custs).id = some (location "custs" "csv", "csv") := by decide
      rw [this]
      simp only [h]
      exact hk SerExample.custs (by simp [SerExample.es])
    have r2 : ∀ d' : Disk β, d' (location "orders" "csv") = some (codec.write "csv" { SerExample.orders.df with rows := [] }) →
        readData codec d' (savedOf SerExample.es "csv") (describeEntity SerExample.orders) = some { SerExample.orders.df with rows := [] } := by
      intro d' h
      unfold readData
      have : (savedOf SerExample.es "csv").loading.lookup (describeEntity SerExample.orders).id = some (location "orders" "csv", "csv") := by decide
      rw [this]
      simp only [h]
      exact hk' SerExample.orders (by simp [SerExample.es])
    rw [hd]
    simp only [readAll, r1 _ hcust, r2 _ (run_writeFile _ _ _)]
    rfl
  · intro h
    have := h.data SerExample.orders (by simp [SerExample.es])
    have := congrArg (Option.map fun f : DataFrame => f.rows.length) this
    revert this
    decide
  · intro h
    have := h.data { SerExample.custs with df := { SerExample.custs.df with rows := [] } } (by simp [SerExample.es, DiskExample.other])
    have := congrArg (Option.map fun f : DataFrame => f.rows.length) this
    revert this
    decide

/-! ### C36 -/

theorem saveChunks_stamps {β : Type} (chunks : List (Stamp × List β)) :
    saveChunks (chunks.map fun c => (ChunkTime.stamp c.1, c.2)) = chunks.flatMap fun c => writeFile (tempFile c.1) c.2 ++ [.rename (tempFile c.1) (progressFile c.1)] := by
  induction chunks with
  | nil => rfl
  | cons c cs ih =>
    simp only [List.map_cons, saveChunks, saveProgress, List.flatMap_cons, ih]

/-- One chunk: until its last step, only its temporary file is changed; then its file holds the result. -/
theorem chunk_step {β : Type} (t : Stamp) (bytes : List β) (d : Disk β) (k : Nat) (g : String) (hg : g ≠ tempFile t) :
    runSteps d ((writeFile (tempFile t) bytes ++ [DiskStep.rename (tempFile t) (progressFile t)]).take k) g =
      if k = 0 ∨ k ≤ bytes.length + 1 then d g else if g = progressFile t then some bytes else d g := by
  have hlen : (writeFile (tempFile t) bytes).length = bytes.length + 1 := by simp [writeFile]
  by_cases hk : k ≤ bytes.length + 1
  · rw [if_pos (.inr hk), List.take_append_of_le_length (by omega), runSteps_untouched]
    intro s hs ht
    exact hg (writeFile_touches (List.mem_of_mem_take hs) ht)
  · rw [if_neg (by omega), List.take_of_length_le (by simp [hlen]; omega), runSteps_append]
    have h1 : ∀ (d : Disk β) s, runSteps d [s] = DiskStep.run d s := fun _ _ => rfl
    rw [h1]
    simp only [DiskStep.run, run_writeFile]
    split
    · rfl
    · rw [runSteps_untouched]
      intro s hs ht
      exact hg (writeFile_touches hs ht)

/-- **C36.** At every crash point every file of the directory, outside `temp`, is as it was before the run or holds the
complete result of a chunk of this run with that file name; and a name is touched by no chunk of another name. -/
theorem C36_complete {β : Type} (chunks : List (Stamp × List β)) (d : Disk β) (k : Nat) (g : String) (hg : ∀ c ∈ chunks, g ≠ tempFile c.1) :
    let d' := runSteps d ((saveChunks (chunks.map fun c => (ChunkTime.stamp c.1, c.2))).take k)
    d' g = d g ∨ ∃ c ∈ chunks, g = progressFile c.1 ∧ d' g = some c.2 := by
  rw [saveChunks_stamps]
  simp only
  induction chunks generalizing d k with
  | nil => left; simp [runSteps]
  | cons c cs ih =>
    have hc := hg c (List.mem_cons_self ..)
    simp only [List.flatMap_cons]
    by_cases hk : k ≤ (writeFile (tempFile c.1) c.2 ++ [DiskStep.rename (tempFile c.1) (progressFile c.1)]).length
    · rw [List.take_append_of_le_length hk, chunk_step _ _ _ _ _ hc]
      split
      · exact .inl rfl
      · split
        · rename_i he; exact .inr ⟨c, List.mem_cons_self .., he, rfl⟩
        · exact .inl rfl
    · rw [List.take_append, List.take_of_length_le (by omega), runSteps_append]
      have hc1 := chunk_step c.1 c.2 d (c.2.length + 2) g hc
      rw [List.take_of_length_le (by simp [writeFile]), if_neg (by omega)] at hc1
      rcases ih (runSteps d (writeFile (tempFile c.1) c.2 ++ [DiskStep.rename (tempFile c.1) (progressFile c.1)]))
        (k - (writeFile (tempFile c.1) c.2 ++ [DiskStep.rename (tempFile c.1) (progressFile c.1)]).length) (fun x hx => hg x (List.mem_cons_of_mem _ hx)) with h | ⟨x, hx, h1, h2⟩
      · rw [h, hc1]
        split
        · rename_i he; exact .inr ⟨c, List.mem_cons_self .., he, rfl⟩
        · exact .inl rfl
      · exact .inr ⟨x, List.mem_cons_of_mem _ hx, h1, h2⟩

/-- **C36.** When the run is done and no two chunks have times with the same date and the same time on a 12-hour clock, every
chunk has its file with its result. Missing: such times, see the violations. -/
theorem C36_all_saved_partial {β : Type} (chunks : List (Stamp × List β)) (hv : ∀ c ∈ chunks, Stamp.Valid c.1)
    (hd : chunks.Pairwise fun a b => ¬ (a.1.year = b.1.year ∧ a.1.month = b.1.month ∧ a.1.day = b.1.day ∧ a.1.hour % 12 = b.1.hour % 12 ∧
      a.1.minute = b.1.minute ∧ a.1.second = b.1.second ∧ a.1.micro = b.1.micro))
    (d : Disk β) : ∀ c ∈ chunks, runSteps d (saveChunks (chunks.map fun c => (ChunkTime.stamp c.1, c.2))) (progressFile c.1) = some c.2 := by
  rw [saveChunks_stamps]
  induction chunks generalizing d with
  | nil => intro c hc; cases hc
  | cons a as ih =>
    rw [List.pairwise_cons] at hd
    intro c hc
    simp only [List.flatMap_cons, runSteps_append _ (writeFile _ _ ++ _)]
    rcases List.mem_cons.mp hc with rfl | hc
    · have hno : ∀ x ∈ as, progressFile c.1 ≠ progressFile x.1 := by
        intro x hx h
        exact hd.1 x hx ((progressName_iff (hv c (List.mem_cons_self ..)) (hv x (List.mem_cons_of_mem _ hx))).mp (progressFile_inj.mp h))
      rw [runSteps_untouched]
      · have := chunk_step c.1 c.2 d (c.2.length + 2) (progressFile c.1) (Ne.symm (tempFile_ne _ _))
        rw [List.take_of_length_le (by simp [writeFile]), if_neg (by omega), if_pos rfl] at this
        exact this
      · intro s hs ht
        obtain ⟨x, hx, hs⟩ := List.mem_flatMap.mp hs
        rcases List.mem_append.mp hs with hs | hs
        · exact tempFile_ne _ _ (writeFile_touches hs ht).symm
        · rw [List.mem_singleton] at hs
          subst hs
          rcases ht with h | h
          · exact tempFile_ne _ _ h.symm
          · exact hno x hx h
    · exact ih (fun x hx => hv x (List.mem_cons_of_mem _ hx)) hd.2 _ c hc

/-- **C36.** Two chunks share a file exactly when their times are the same on a 12-hour clock. -/
theorem C36_same_file (s t : Stamp) (hs : Stamp.Valid s) (ht : Stamp.Valid t) : progressFile s = progressFile t ↔
    s.year = t.year ∧ s.month = t.month ∧ s.day = t.day ∧ s.hour % 12 = t.hour % 12 ∧ s.minute = t.minute ∧ s.second = t.second ∧ s.micro = t.micro :=
  progressFile_inj.trans (progressName_iff hs ht)

/-- Three chunks that are all saved. -/
example : let chunks : List (Stamp × List Nat) := [(⟨2020, 1, 2, 3, 0, 0, 0⟩, [1]), (⟨2020, 1, 2, 4, 0, 0, 0⟩, [2, 3]), (⟨2020, 1, 3, 3, 0, 0, 7⟩, [])]
    (∀ c ∈ chunks, Stamp.Valid c.1) ∧ (chunks.Pairwise fun a b => ¬ (a.1.year = b.1.year ∧ a.1.month = b.1.month ∧ a.1.day = b.1.day ∧
      a.1.hour % 12 = b.1.hour % 12 ∧ a.1.minute = b.1.minute ∧ a.1.second = b.1.second ∧ a.1.micro = b.1.micro)) ∧
    progressFile ⟨2020, 1, 2, 3, 0, 0, 0⟩ = "ft_2020_01_02_03-00-00-000000.csv" := by
  refine ⟨?_, by decide, by decide⟩
  intro c hc
  simp only [List.mem_cons, List.not_mem_nil, or_false] at hc
  rcases hc with rfl | rfl | rfl <;> constructor <;> decide

/-- **C36 is violated** by chunks at 3 and at 15 o'clock: the second overwrites the first. -/
theorem C36_afternoon_violated {β : Type} (a b : List β) (d : Disk β) :
    runSteps d (saveChunks [(.stamp ⟨2020, 1, 2, 3, 0, 0, 0⟩, a), (.stamp ⟨2020, 1, 2, 15, 0, 0, 0⟩, b)]) "ft_2020_01_02_03-00-00-000000.csv" = some b ∧
    ∀ g, g ≠ tempFile ⟨2020, 1, 2, 3, 0, 0, 0⟩ → g ≠ "ft_2020_01_02_03-00-00-000000.csv" →
      runSteps d (saveChunks [(.stamp ⟨2020, 1, 2, 3, 0, 0, 0⟩, a), (.stamp ⟨2020, 1, 2, 15, 0, 0, 0⟩, b)]) g = d g := by
  have e1 : tempFile ⟨2020, 1, 2, 15, 0, 0, 0⟩ = tempFile ⟨2020, 1, 2, 3, 0, 0, 0⟩ := by decide
  have e2 : progressFile ⟨2020, 1, 2, 15, 0, 0, 0⟩ = "ft_2020_01_02_03-00-00-000000.csv" := by decide
  have e3 : progressFile ⟨2020, 1, 2, 3, 0, 0, 0⟩ = "ft_2020_01_02_03-00-00-000000.csv" := by decide
  have step : ∀ g, g ≠ tempFile ⟨2020, 1, 2, 3, 0, 0, 0⟩ →
      runSteps d (saveChunks [(.stamp ⟨2020, 1, 2, 3, 0, 0, 0⟩, a), (.stamp ⟨2020, 1, 2, 15, 0, 0, 0⟩, b)]) g =
        if g = "ft_2020_01_02_03-00-00-000000.csv" then some b else d g := by
    intro g hg
    have hs := saveChunks_stamps [((⟨2020, 1, 2, 3, 0, 0, 0⟩ : Stamp), a), (⟨2020, 1, 2, 15, 0, 0, 0⟩, b)]
    simp only [List.map_cons, List.map_nil, List.flatMap_cons, List.flatMap_nil, List.append_nil] at hs
    rw [hs, runSteps_append]
    have c1 := chunk_step (⟨2020, 1, 2, 15, 0, 0, 0⟩ : Stamp) b (runSteps d (writeFile (tempFile ⟨2020, 1, 2, 3, 0, 0, 0⟩) a ++
      [.rename (tempFile ⟨2020, 1, 2, 3, 0, 0, 0⟩) (progressFile ⟨2020, 1, 2, 3, 0, 0, 0⟩)])) (b.length + 2) g (by rw [e1]; exact hg)
    rw [List.take_of_length_le (by simp [writeFile]), if_neg (by omega)] at c1
    have c2 := chunk_step (⟨2020, 1, 2, 3, 0, 0, 0⟩ : Stamp) a d (a.length + 2) g hg
    rw [List.take_of_length_le (by simp [writeFile]), if_neg (by omega)] at c2
    rw [c1, c2, e2, e3]
    split <;> rfl
  refine ⟨?_, ?_⟩
  · rw [step _ (by decide), if_pos rfl]
  · intro g h1 h2
    rw [step g h1, if_neg h2]

/-- **C36 is violated** when all aggregations are approximated: the time is then not a pandas timestamp, and saving raises. -/
theorem C36_not_timestamp_violated {β : Type} (bytes : List β) (n : Int) :
    saveProgress .now bytes = .error .attributeError ∧ saveProgress (.number n) bytes = .error .attributeError := ⟨rfl, rfl⟩

end FT
