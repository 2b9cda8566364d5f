import Verif.Spec.Disk
import Verif.Lemmas.Serialize
/-! # Lemmas about disks -/
namespace FT
open Spec

theorem runSteps_append {β : Type} (d : Disk β) (a b : List (DiskStep β)) : runSteps d (a ++ b) = runSteps (runSteps d a) b := List.foldl_append

/-- The files a step changes. -/
def DiskStep.touches {β : Type} : DiskStep β → String → Prop
  | .create f, g => g = f
  | .append f _, g => g = f
  | .rename s t, g => g = s ∨ g = t

theorem runSteps_untouched {β : Type} {steps : List (DiskStep β)} {g : String} (h : ∀ s ∈ steps, ¬ s.touches g) (d : Disk β) :
    runSteps d steps g = d g := by
  induction steps generalizing d with
  | nil => rfl
  | cons s ss ih =>
    have : runSteps d (s :: ss) = runSteps (DiskStep.run d s) ss := rfl
    rw [this, ih (fun t ht => h t (List.mem_cons_of_mem _ ht))]
    have hs := h s (List.mem_cons_self ..)
    cases s with
    | create f => simp only [DiskStep.touches] at hs; simp [DiskStep.run, hs]
    | append f b => simp only [DiskStep.touches] at hs; simp [DiskStep.run, hs]
    | rename a b =>
      simp only [DiskStep.touches, not_or] at hs
      simp [DiskStep.run, hs.1, hs.2]

theorem writeFile_touches {β : Type} {f : String} {bytes : List β} {s : DiskStep β} (hs : s ∈ writeFile f bytes) {g : String} (h : s.touches g) : g = f := by
  unfold writeFile at hs
  rcases List.mem_cons.mp hs with rfl | hs
  · exact h
  · obtain ⟨b, _, rfl⟩ := List.mem_map.mp hs
    exact h

theorem run_appends {β : Type} (f : String) (bytes : List β) (d : Disk β) (old : List β) (h : d f = some old) :
    runSteps d (bytes.map (.append f)) f = some (old ++ bytes) := by
  induction bytes generalizing d old with
  | nil => simp [runSteps, h]
  | cons b bs ih =>
    have : runSteps d ((b :: bs).map (.append f)) = runSteps (DiskStep.run d (.append f b)) (bs.map (.append f)) := rfl
    rw [this, ih _ (old ++ [b])]
    · simp
    · simp [DiskStep.run, h]

theorem run_writeFile {β : Type} (f : String) (bytes : List β) (d : Disk β) : runSteps d (writeFile f bytes) f = some bytes := by
  have : runSteps d (writeFile f bytes) = runSteps (DiskStep.run d (.create f)) (bytes.map (.append f)) := rfl
  rw [this, run_appends f bytes _ [] (by simp [DiskStep.run])]
  rfl

theorem take_writeFile {β : Type} (f : String) (bytes : List β) (k : Nat) : (writeFile f bytes).take (k + 1) = writeFile f (bytes.take k) := by
  simp [writeFile, List.map_take]

theorem location_inj {a b format : String} (h : location a format = location b format) : a = b := by
  unfold location at h
  have h2 := congrArg String.toList h
  simp only [String.toList_append] at h2
  rw [List.append_right_inj, List.append_left_inj] at h2
  exact String.toList_inj.mp h2

theorem location_ne (id format : String) : location id format ≠ descriptionFile := by
  intro h
  unfold location descriptionFile at h
  have h2 := congrArg String.toList h
  simp only [String.toList_append] at h2
  have h3 : "data/".toList = ['d', 'a', 't', 'a', '/'] := by decide
  have h4 : "data_description.json".toList = ['d', 'a', 't', 'a', '_', 'd', 'e', 's', 'c', 'r', 'i', 'p', 't', 'i', 'o', 'n', '.', 'j', 's', 'o', 'n'] := by decide
  rw [h3, h4] at h2
  simp at h2

/-- The steps of writing data. -/
def dataSteps {β : Type} (codec : Codec β) (format : String) (xs : List Entity) : List (DiskStep β) :=
  xs.flatMap fun x => writeFile (location x.id format) (codec.write format x.df)

theorem dataSteps_touches {β : Type} {codec : Codec β} {format : String} {xs : List Entity} {s : DiskStep β} (hs : s ∈ dataSteps codec format xs) {g : String}
    (h : s.touches g) : ∃ x ∈ xs, g = location x.id format := by
  obtain ⟨x, hx, hs⟩ := List.mem_flatMap.mp hs
  exact ⟨x, hx, writeFile_touches hs h⟩

theorem run_dataSteps {β : Type} {codec : Codec β} {format : String} {xs : List Entity} (hn : (xs.map Entity.id).Nodup) (d : Disk β) {x : Entity} (hx : x ∈ xs) :
    runSteps d (dataSteps codec format xs) (location x.id format) = some (codec.write format x.df) := by
  induction xs generalizing d with
  | nil => cases hx
  | cons y ys ih =>
    simp only [List.map_cons, List.nodup_cons] at hn
    have : dataSteps codec format (y :: ys) = writeFile (location y.id format) (codec.write format y.df) ++ dataSteps codec format ys := rfl
    rw [this, runSteps_append]
    rcases List.mem_cons.mp hx with rfl | hx
    · rw [runSteps_untouched, run_writeFile]
      intro s hs ht
      obtain ⟨z, hz, he⟩ := dataSteps_touches hs ht
      exact hn.1 (location_inj he ▸ List.mem_map_of_mem hz)
    · exact ih hn.2 _ hx

theorem dumpSteps_eq {β : Type} (codec : Codec β) (format : String) (es : ESet) :
    dumpSteps codec format es = dataSteps codec format es.entities ++ writeFile descriptionFile (codec.dump (savedOf es format)) := rfl

theorem readAll_ok {β : Type} {codec : Codec β} {d : Disk β} {s : Saved} {xs : List EntDesc} {f : String → DataFrame}
    (h : ∀ x ∈ xs, readData codec d s x = some (f x.id)) : readAll codec d s xs = some (xs.map fun x => (x.id, f x.id)) := by
  induction xs with
  | nil => rfl
  | cons x xs ih =>
    simp only [readAll, h x (List.mem_cons_self ..), ih fun y hy => h y (List.mem_cons_of_mem _ hy), List.map_cons]

theorem lookup_map_mem {α γ : Type} {l : List α} {key : α → String} {val : α → γ} (hn : (l.map key).Nodup) {a : α} (ha : a ∈ l) :
    (l.map fun x => (key x, val x)).lookup (key a) = some (val a) := by
  induction l with
  | nil => cases ha
  | cons b l ih =>
    simp only [List.map_cons, List.nodup_cons] at hn
    rcases List.mem_cons.mp ha with rfl | ha
    · simp
    · have : key a ≠ key b := fun h => hn.1 (h ▸ List.mem_map_of_mem ha)
      simp only [List.map_cons, List.lookup_cons]
      rw [beq_eq_false_iff_ne.mpr this]
      exact ih hn.2 ha

theorem describe_mem {es : ESet} {d : EntDesc} : d ∈ (describe es).entities ↔ ∃ x ∈ es.entities, describeEntity x = d := by
  rw [describe_byId, List.mem_map]
  constructor
  · rintro ⟨x, hx, h⟩; exact ⟨x, mem_byId.mp hx, h⟩
  · rintro ⟨x, hx, h⟩; exact ⟨x, mem_byId.mpr hx, h⟩

/-- When the description and the data are on the disk, the entity set is read. -/
theorem readSaved_ok {β : Type} {codec : Codec β} (hl : Lawful codec) {format : String} {es : ESet} (hk : Kept codec format es)
    (hn : (es.entities.map Entity.id).Nodup) {d : Disk β} (hd : d descriptionFile = some (codec.dump (savedOf es format)))
    (hdata : ∀ x ∈ es.entities, d (location x.id format) = some (codec.write format x.df)) :
    ∃ r, readSaved codec d = some r ∧ IsSaved r es := by
  have hread : ∀ x ∈ es.entities, readData codec d (savedOf es format) (describeEntity x) = some x.df := by
    intro x hx
    unfold readData savedOf
    have : (describeEntity x).id = x.id := rfl
    rw [this, lookup_map_mem (key := Entity.id) (val := fun x => (location x.id format, format)) hn hx]
    simp only [hdata x hx]
    exact hk x hx
  have hall : readAll codec d (savedOf es format) (describe es).entities =
      some ((describe es).entities.map fun x => (x.id, ((es.get? x.id).map Entity.df).getD { cols := [], rows := [], dtype := fun _ => "" })) := by
    apply readAll_ok (f := fun i => ((es.get? i).map Entity.df).getD { cols := [], rows := [], dtype := fun _ => "" })
    intro e he
    obtain ⟨x, hx, rfl⟩ := describe_mem.mp he
    have : (describeEntity x).id = x.id := rfl
    rw [hread x hx, this, get?_of_mem hn hx]
    rfl
  refine ⟨(describe es, (describe es).entities.map fun x => (x.id, ((es.get? x.id).map Entity.df).getD { cols := [], rows := [], dtype := fun _ => "" })),
    ?_, ⟨rfl, ?_, ?_⟩⟩
  · unfold readSaved
    rw [hd]
    simp only [hl.whole]
    have : (savedOf es format).desc = describe es := rfl
    rw [this, hall]
    rfl
  · simp [List.map_map, Function.comp_def]
  · intro x hx
    have hn' : ((describe es).entities.map EntDesc.id).Nodup := by
      rw [describe_byId, List.map_map]
      exact ((isort_perm _ es.entities).map Entity.id).nodup_iff.mpr hn
    have := lookup_map_mem (key := EntDesc.id) (val := fun x => ((es.get? x.id).map Entity.df).getD { cols := [], rows := [], dtype := fun _ => "" })
      hn' (describe_mem.mpr ⟨x, hx, rfl⟩)
    simp only at this ⊢
    have he : (describeEntity x).id = x.id := rfl
    rw [he, get?_of_mem hn hx] at this
    exact this

theorem take_dump {β : Type} {codec : Codec β} {format : String} {es : ESet} (k : Nat) (d : Disk β) :
    (∃ steps, (∀ s ∈ steps, s ∈ dataSteps codec format es.entities) ∧ runSteps d ((dumpSteps codec format es).take k) = runSteps d steps ∧
      k ≤ (dataSteps codec format es.entities).length) ∨
    ∃ j, k = (dataSteps codec format es.entities).length + j + 1 ∧
      runSteps d ((dumpSteps codec format es).take k) =
        runSteps (runSteps d (dataSteps codec format es.entities)) (writeFile descriptionFile ((codec.dump (savedOf es format)).take j)) := by
  rw [dumpSteps_eq]
  by_cases h : k ≤ (dataSteps codec format es.entities).length
  · left
    refine ⟨(dataSteps codec format es.entities).take k, fun s hs => List.mem_of_mem_take hs, ?_, h⟩
    rw [List.take_append_of_le_length h]
  · right
    obtain ⟨j, hj⟩ : ∃ j, k = (dataSteps codec format es.entities).length + j + 1 := ⟨k - (dataSteps codec format es.entities).length - 1, by omega⟩
    refine ⟨j, hj, ?_⟩
    rw [List.take_append, List.take_of_length_le (by omega), runSteps_append]
    congr 1
    have : k - (dataSteps codec format es.entities).length = j + 1 := by omega
    rw [this, take_writeFile]

theorem dataSteps_desc {β : Type} {codec : Codec β} {format : String} {xs : List Entity} {steps : List (DiskStep β)}
    (h : ∀ s ∈ steps, s ∈ dataSteps codec format xs) (d : Disk β) : runSteps d steps descriptionFile = d descriptionFile :=
  runSteps_untouched (fun s hs ht => by
    obtain ⟨x, _, he⟩ := dataSteps_touches (h s hs) ht
    exact location_ne _ _ he.symm) d

theorem run_dump {β : Type} {codec : Codec β} {format : String} {es : ESet} (hn : (es.entities.map Entity.id).Nodup) (d : Disk β) :
    runSteps d (dumpSteps codec format es) descriptionFile = some (codec.dump (savedOf es format)) ∧
    ∀ x ∈ es.entities, runSteps d (dumpSteps codec format es) (location x.id format) = some (codec.write format x.df) := by
  rw [dumpSteps_eq, runSteps_append]
  refine ⟨run_writeFile _ _ _, fun x hx => ?_⟩
  rw [runSteps_untouched, run_dataSteps hn d hx]
  intro s hs ht
  exact location_ne _ _ (writeFile_touches hs ht)

/-- While the description is being written, reading fails until it is complete. -/
theorem read_cut {β : Type} {codec : Codec β} (hl : Lawful codec) {s : Saved} (d : Disk β) {j : Nat} (hj : j < (codec.dump s).length) :
    readSaved codec (runSteps d (writeFile descriptionFile ((codec.dump s).take j))) = none := by
  unfold readSaved
  rw [run_writeFile]
  simp only
  rw [hl.cut s _ (List.take_prefix ..)]
  intro h
  have := congrArg List.length h
  rw [List.length_take] at this
  omega

/-! ### Names of progress files -/

theorem padDigits_length (w n : Nat) : (padDigits w n).length = w := by
  induction w generalizing n with
  | zero => rfl
  | succ w ih => simp [padDigits, ih]

theorem digit_inj {a b : Nat} (ha : a < 10) (hb : b < 10) (h : Char.ofNat (48 + a) = Char.ofNat (48 + b)) : a = b := by
  have h2 := congrArg Char.toNat h
  rcases a with _ | _ | _ | _ | _ | _ | _ | _ | _ | _ | a <;> rcases b with _ | _ | _ | _ | _ | _ | _ | _ | _ | _ | b <;>
    first | rfl | (revert h2; decide) | omega

theorem padDigits_inj {w a b : Nat} (ha : a < 10 ^ w) (hb : b < 10 ^ w) (h : padDigits w a = padDigits w b) : a = b := by
  induction w generalizing a b with
  | zero => simp at ha hb; omega
  | succ w ih =>
    simp only [padDigits] at h
    have hh := List.append_inj h (by rw [padDigits_length, padDigits_length])
    have h1 := ih (by rw [Nat.pow_succ] at ha; omega) (by rw [Nat.pow_succ] at hb; omega) hh.1
    have h2 := digit_inj (Nat.mod_lt _ (by omega)) (Nat.mod_lt _ (by omega)) (List.singleton_inj.mp hh.2)
    omega

theorem hour12_iff (a b : Nat) : hour12 a = hour12 b ↔ a % 12 = b % 12 := by
  unfold hour12
  split <;> split <;> omega

theorem progressName_iff {s t : Stamp} (hs : Stamp.Valid s) (ht : Stamp.Valid t) : progressName s = progressName t ↔
    s.year = t.year ∧ s.month = t.month ∧ s.day = t.day ∧ s.hour % 12 = t.hour % 12 ∧ s.minute = t.minute ∧ s.second = t.second ∧ s.micro = t.micro := by
  have h12 : ∀ h, hour12 h < 100 := by intro h; unfold hour12; split <;> omega
  constructor
  · intro h
    unfold progressName at h
    simp only [List.append_assoc] at h
    have step : ∀ {w a b : Nat} {x y : List Char}, padDigits w a ++ x = padDigits w b ++ y → padDigits w a = padDigits w b ∧ x = y :=
      fun h => List.append_inj h (by rw [padDigits_length, padDigits_length])
    have h := List.append_cancel_left h
    obtain ⟨e1, h⟩ := step h
    have h := List.append_cancel_left h
    obtain ⟨e2, h⟩ := step h
    have h := List.append_cancel_left h
    obtain ⟨e3, h⟩ := step h
    have h := List.append_cancel_left h
    obtain ⟨e4, h⟩ := step h
    have h := List.append_cancel_left h
    obtain ⟨e5, h⟩ := step h
    have h := List.append_cancel_left h
    obtain ⟨e6, h⟩ := step h
    have h := List.append_cancel_left h
    obtain ⟨e7, h⟩ := step h
    refine ⟨padDigits_inj hs.year ht.year e1, padDigits_inj hs.month ht.month e2, padDigits_inj hs.day ht.day e3, ?_,
      padDigits_inj (w := 2) (by have := hs.minute; omega) (by have := ht.minute; omega) e5,
      padDigits_inj (w := 2) (by have := hs.second; omega) (by have := ht.second; omega) e6, padDigits_inj hs.micro ht.micro e7⟩
    exact (hour12_iff _ _).mp (padDigits_inj (w := 2) (h12 _) (h12 _) e4)
  · rintro ⟨h1, h2, h3, h4, h5, h6, h7⟩
    unfold progressName
    rw [h1, h2, h3, h5, h6, h7, (hour12_iff _ _).mpr h4]

theorem tempFile_ne (s t : Stamp) : tempFile s ≠ progressFile t := by
  intro h
  have h2 := String.ofList_injective h
  simp only [progressName, List.append_assoc] at h2
  have : "temp/".toList = ['t', 'e', 'm', 'p', '/'] := by decide
  rw [this] at h2
  simp at h2

theorem progressFile_inj {s t : Stamp} : progressFile s = progressFile t ↔ progressName s = progressName t :=
  ⟨fun h => String.ofList_injective h, fun h => congrArg String.ofList h⟩

end FT
