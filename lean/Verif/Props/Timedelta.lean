import Verif.Lemmas.TimedeltaParse
/-!
# C18, C19: timedeltas
-/
namespace FT
open FT.Spec Timedelta

/-- C18. Every timedelta built from units and values is restored exactly by its saved arguments. -/
theorem C18_arguments_roundtrip (times : Dict Int) (td : Timedelta) (h : Timedelta.make times = .ok td) :
    fromDictionary (getArguments td) = .ok td := by
  unfold make at h
  simp only at h
  have hgt : getUnitType (fixUnits times) = .ok td.delta ∧ td.times = fixUnits times := by
    cases hg : getUnitType (fixUnits times) with
    | error e => rw [hg] at h; cases h
    | ok d => rw [hg] at h; injection h with h; subst h; exact ⟨rfl, rfl⟩
  obtain ⟨h1, h2⟩ := hgt
  have hid : fixUnits td.times = td.times := by rw [h2, fixUnits_idem]
  have hmake : make td.times = .ok td := by
    simp only [make, hid]
    rw [h2, h1]
    cases td; simp at h2; simp [Except.map, h2]
  have hn : (td.times.map Prod.fst).Nodup := by rw [h2]; exact nodup_fixUnits _
  unfold getArguments
  split
  · rename_i u v he
    simp only [fromDictionary]
    rw [← he, hmake]
  · rename_i he
    simp only [fromDictionary, List.length_map, Nat.le_refl, if_true]
    rw [show (td.times.map Prod.fst).zip (td.times.map Prod.snd) = td.times by
      rw [← List.unzip_fst, ← List.unzip_snd, List.zip_unzip]]
    have := Dict.foldl_set (α := Int) id td.times [] (by simp) (by simpa using hn)
    simp only [id, List.nil_append] at this
    rw [this, hmake]

/-- C18. Negation negates every value and the internal offset alike, and negating twice restores the timedelta. -/
theorem C18_negation (times : Dict Int) (td : Timedelta) (h : Timedelta.make times = .ok td) :
    ∃ td', neg td = .ok td' ∧ td'.times = td.times.map (fun uv => (uv.1, -uv.2)) ∧
      Timedelta.make td'.times = .ok td' ∧ neg td' = .ok td := by
  have hgt : getUnitType (fixUnits times) = .ok td.delta ∧ td.times = fixUnits times := by
    unfold make at h; simp only at h
    cases hg : getUnitType (fixUnits times) with
    | error e => rw [hg] at h; cases h
    | ok d => rw [hg] at h; injection h with h; subst h; exact ⟨rfl, rfl⟩
  obtain ⟨h1, h2⟩ := hgt
  have hk : ∀ x ∈ td.times.map Prod.fst, fixUnit x = x := by
    rw [h2]; exact fixUnit_of_mem_fixUnits times
  have hn : (td.times.map Prod.fst).Nodup := by rw [h2]; exact nodup_fixUnits _
  have hid : fixUnits td.times = td.times := fixUnits_fixed _ hn hk
  have hid' : fixUnits (td.times.map fun uv => (uv.1, -uv.2)) = td.times.map fun uv => (uv.1, -uv.2) :=
    fixUnits_fixed _ (by rw [keys_neg]; exact hn) (by rw [keys_neg]; exact hk)
  have hg : getUnitType td.times = .ok td.delta := by rw [h2, h1]
  have hg' := getUnitType_neg td.times
  rw [hg] at hg'
  refine ⟨⟨td.times.map fun uv => (uv.1, -uv.2), td.delta.map DeltaObj.neg⟩, ?_, rfl, ?_, ?_⟩
  · unfold neg
    cases hd : td.delta with
    | none => simp only [make, hid', hg', hd]; rfl
    | some d => simp only [make, hid']; rfl
  · simp only [make, hid', hg']; rfl
  · unfold neg
    cases hd : td.delta with
    | none =>
      simp only [Option.map_none, make, neg_neg_times, hid, hg, hd]
      cases td; simp at hd; simp [Except.map, hd]
    | some d =>
      simp only [Option.map_some, make, neg_neg_times, hid, deltaNeg_neg]
      cases td; simp at hd; simp [hd]

/-- C18. Every documented spelling of a unit gives the canonical unit. -/
theorem C18_documented_units (c s : String) (spellings : List String) (n : Int)
    (h : (c, spellings) ∈ documentedUnits) (hs : s ∈ spellings) :
    ∃ td, Timedelta.make [(s, n)] = .ok td ∧ td.times = [(c, n)] := by
  have hall : ∀ x ∈ documentedUnits, ∀ s ∈ x.2, fixUnit s = x.1 ∧
      (x.1 = "o" ∨ absoluteUnits.contains x.1 ∨ x.1 = "mo" ∨ x.1 = "Y") := by decide
  obtain ⟨h1, h2⟩ := hall _ h s hs
  simp only at h1 h2
  have hf : fixUnits [(s, n)] = [(c, n)] := by simp [fixUnits, Dict.set, h1]
  have hgo : ∃ d, getUnitType [(c, n)] = .ok d := by
    rcases h2 with rfl | h2 | rfl | rfl
    · exact ⟨_, rfl⟩
    · by_cases ho : c = "o"
      · subst ho; exact ⟨_, rfl⟩
      · refine ⟨some (.absolute n c), ?_⟩
        have : absoluteUnits.contains c = true := h2
        have hno : ¬ ([c].contains "o" = true) := by
          simp; exact fun e => ho e.symm
        simp only [getUnitType, getUnits, isAbsolute, hasMultipleUnits, List.map_cons, List.map_nil]
        rw [if_neg hno, if_pos]
        simp only [List.all_cons, this]; rfl
    · exact ⟨_, rfl⟩
    · exact ⟨_, rfl⟩
  obtain ⟨d, hd⟩ := hgo
  exact ⟨⟨[(c, n)], d⟩, by simp only [make, hf, hd]; rfl, rfl⟩

/-- C18. Timedeltas with one unit: equal display names only for equal timedeltas. -/
theorem C18_single_unit_names_distinct (u u' : String) (v v' : Int) (d d' : Option DeltaObj) (s : String)
    (h : getName ⟨[(u, v)], d⟩ = .ok s) (h' : getName ⟨[(u', v')], d'⟩ = .ok s) : u = u' ∧ v = v' :=
  unitName_inj h h'

theorem named_of_namesOf (l : Dict Int) (hk : ∀ u ∈ l.map Prod.fst, u ∈ readableUnits.map Prod.fst ∧ u ≠ "ms") :
    ∀ ns, namesOf l = .ok ns → Named l ns := by
  have hsing : ∀ u ∈ readableUnits.map Prod.fst, u ≠ "ms" → makeSingular u = u := by decide
  induction l with
  | nil => intro ns h; cases h; trivial
  | cons e l ih =>
    obtain ⟨u, v⟩ := e
    intro ns h
    have hu := hk u (by simp)
    have h1 : (if v = 1 then makeSingular u else u) = u := by
      split
      · exact hsing u hu.1 hu.2
      · rfl
    simp only [namesOf, h1, bind, Except.bind] at h
    cases hn : unitName u v with
    | error e => rw [hn] at h; cases h
    | ok n =>
      rw [hn] at h
      simp only at h
      cases hl : namesOf l with
      | error e => rw [hl] at h; cases h
      | ok ns' =>
        rw [hl] at h
        cases h
        exact ⟨hn, ih (fun u hu => hk u (by simp at hu ⊢; exact .inr hu)) ns' hl⟩

/-- C18, partial: two timedeltas in documented units with the same display name have the same units and values, when
neither combines milliseconds with another unit (the full claim drops that condition and is false, next theorem). -/
theorem C18_names_distinct_partial (a b : Timedelta) (s : String)
    (hua : ∀ u ∈ a.times.map Prod.fst, u ∈ documentedUnits.map Prod.fst)
    (hub : ∀ u ∈ b.times.map Prod.fst, u ∈ documentedUnits.map Prod.fst)
    (ha : "ms" ∉ a.times.map Prod.fst ∨ a.times.length = 1) (hb : "ms" ∉ b.times.map Prod.fst ∨ b.times.length = 1)
    (h : getName a = .ok s) (h' : getName b = .ok s) : a.times = b.times := by
  have hdoc : ∀ u ∈ documentedUnits.map Prod.fst, u ∈ readableUnits.map Prod.fst := by decide
  have key : ∀ t : Timedelta, (∀ u ∈ t.times.map Prod.fst, u ∈ documentedUnits.map Prod.fst) →
      ("ms" ∉ t.times.map Prod.fst ∨ t.times.length = 1) → getName t = .ok s →
      ∃ ns, t.times ≠ [] ∧ Named t.times ns ∧ s = String.intercalate " " ns := by
    intro t hu hm hg
    unfold getName at hg
    split at hg
    · cases hg
    · rename_i u v he
      rw [he]
      exact ⟨[s], by simp, ⟨hg, trivial⟩, by simp⟩
    · rename_i h0 h1
      have hne : t.times ≠ [] := h0
      have hlen : t.times.length ≠ 1 := by
        intro hl
        match ht : t.times, hl with
        | [(u, v)], _ => exact h1 u v ht
      have hms : "ms" ∉ t.times.map Prod.fst := hm.resolve_right hlen
      cases hns : namesOf t.times with
      | error e => rw [hns] at hg; cases hg
      | ok ns =>
        rw [hns] at hg
        cases hg
        refine ⟨ns, hne, named_of_namesOf _ ?_ ns hns, rfl⟩
        intro u hu'
        exact ⟨hdoc u (hu u hu'), fun e => hms (e ▸ hu')⟩
  obtain ⟨ns, h1, h2, h3⟩ := key a hua ha h
  obtain ⟨ns', h1', h2', h3'⟩ := key b hub hb h'
  exact intercalate_unitNames_inj _ _ _ _ h1 h1' h2 h2' (h3.symm.trans h3')

/-- C18, negation of the full naming claim: one millisecond and one minute print alike next to another unit. Both
timedeltas are accepted by the constructor. -/
theorem C18_names_collide :
    ∃ a b : Timedelta, Timedelta.make [("ms", 1), ("o", 2)] = .ok a ∧ Timedelta.make [("m", 1), ("o", 2)] = .ok b ∧
      Timedelta.eq a b = false ∧ getName a = .ok "1 Minutes 2 Observations" ∧
      getName b = .ok "1 Minutes 2 Observations" :=
  ⟨⟨[("ms", 1), ("o", 2)], none⟩, ⟨[("m", 1), ("o", 2)], none⟩, by decide⟩

/-- C18, negation of the round trip for offsets handed in as objects: a business-day offset is accepted, but its saved
arguments cannot be loaded and it has no display name. -/
theorem C18_offset_roundtrip_fails :
    ∃ td : Timedelta, Timedelta.make [("BDay", 2)] (some (.external true 0)) = .ok td ∧
      fromDictionary (getArguments td) = .error .keyError ∧ getName td = .error .keyError :=
  ⟨⟨[("bdays", 2)], some (.external true 0)⟩, by decide⟩

/-- C18. Equality of timedeltas is equality of the amounts for every unit. -/
theorem C18_equality (a b : Timedelta) (ha : (a.times.map Prod.fst).Nodup) (hb : (b.times.map Prod.fst).Nodup) :
    Timedelta.eq a b = true ↔ SameTimes a b := by
  have hl : ∀ (d : Dict Int), (d.map Prod.fst).Nodup → ∀ kv ∈ d, d.lookup kv.1 = some kv.2 := by
    intro d hd kv hkv
    induction d with
    | nil => simp at hkv
    | cons e d ih =>
      simp only [List.map_cons, List.nodup_cons] at hd
      obtain ⟨ek, ev⟩ := e
      rcases List.mem_cons.mp hkv with he | hm
      · rw [he]; exact List.lookup_cons_self
      · have : ¬ kv.1 = ek := by
          intro e1; apply hd.1; show ek ∈ _; rw [← e1]; exact List.mem_map_of_mem (f := Prod.fst) hm
        rw [List.lookup_cons, beq_false_of_ne this]
        exact ih hd.2 hm
  simp only [Timedelta.eq, Bool.and_eq_true, List.all_eq_true, beq_iff_eq]
  constructor
  · rintro ⟨h1, h2⟩ u
    cases hu : a.times.lookup u with
    | some v => exact (h1 (u, v) (lookup_mem a.times u v hu)).symm
    | none =>
      cases hu' : b.times.lookup u with
      | none => rfl
      | some v =>
        have := h2 (u, v) (lookup_mem b.times u v hu')
        rw [Dict.get?, hu] at this; cases this
  · intro h
    constructor
    · intro kv hkv; rw [Dict.get?, ← h kv.1]; exact hl _ ha _ hkv
    · intro kv hkv; rw [Dict.get?, h kv.1]; exact hl _ hb _ hkv

/-- Non-vacuity: a two-unit timedelta, its arguments, negation and name. -/
example : Timedelta.make [("hours", 2), ("Day", -3)] =
    .ok ⟨[("h", 2), ("d", -3)], some (.relative [("hours", 2), ("days", -3)])⟩ := by decide
example : getName ⟨[("h", 2), ("d", -3)], none⟩ = .ok "2 Hours -3 Days" := by decide

/-- C19. A string is read as a timedelta exactly when it has the form digits, blanks, letters; the value is the number
written and the unit the letters written. -/
theorem C19_parse_exact (s : String) (td : Timedelta) :
    parse s = .ok td ↔ ∃ digits k unit, ReadsAs s.toList digits k unit ∧
      Timedelta.make [(String.ofList unit, (Nat.ofDigitChars 10 digits 0 : Int))] = .ok td := by
  unfold parse
  constructor
  · intro h
    cases hs : scan s.toList with
    | error e => rw [hs] at h; cases h
    | ok nu =>
      obtain ⟨n, u⟩ := nu
      rw [hs] at h
      simp only at h
      obtain ⟨ds, k, us, hr, rfl, rfl⟩ := (scan_ok_iff _ _ _).mp hs
      exact ⟨ds, k, us, hr, h⟩
  · rintro ⟨ds, k, us, hr, h⟩
    rw [(scan_ok_iff s.toList _ _).mpr ⟨ds, k, us, hr, rfl, rfl⟩]
    exact h

/-- C19. Writing any number, any blanks and any word of letters reads back as that number and that word. -/
theorem C19_parse_written (n k : Nat) (unit : List Char) (hne : unit ≠ [])
    (hu : ∀ c ∈ unit, ('a' ≤ c ∧ c ≤ 'z') ∨ ('A' ≤ c ∧ c ≤ 'Z')) :
    parse (n.repr ++ String.ofList (List.replicate k ' ') ++ String.ofList unit) =
      Timedelta.make [(String.ofList unit, (n : Int))] := by
  have hr : ReadsAs (n.repr ++ String.ofList (List.replicate k ' ') ++ String.ofList unit).toList
      (Nat.toDigits 10 n) k unit := by
    refine ⟨.inl ?_, Nat.toDigits_ne_nil, ?_, hne, hu⟩
    · simp [String.toList_append, Nat.toList_repr]
    · intro c hc
      have := Nat.isDigit_of_mem_toDigits (by omega) (by omega) hc
      rw [Char.isDigit_iff_toNat] at this
      simp only [Char.le_def, UInt32.le_iff_toNat_le]
      exact this
  unfold parse
  rw [(scan_ok_iff _ n (String.ofList unit)).mpr
    ⟨_, k, _, hr, by rw [Nat.ofDigitChars_ten_toDigits], rfl⟩]

/-- C19. Every other string is rejected with an error. -/
theorem C19_malformed_rejected (s : String) (h : ¬ ∃ digits k unit, ReadsAs s.toList digits k unit) :
    parse s = .error .attributeError := by
  have hs : ∀ n u, scan s.toList ≠ .ok (n, u) := by
    intro n u hc
    obtain ⟨ds, k, us, hr, _⟩ := (scan_ok_iff _ _ _).mp hc
    exact h ⟨ds, k, us, hr⟩
  have hse : scan s.toList = .error .attributeError := by
    unfold scan
    simp only
    split
    · rename_i hc
      exfalso
      refine hs (Nat.ofDigitChars 10 (s.toList.takeWhile isDigitC) 0)
        (String.ofList (((s.toList.dropWhile isDigitC).dropWhile (· == ' ')).takeWhile isAlphaC)) ?_
      unfold scan
      simp only
      rw [if_pos hc]
    · rfl
  simp [parse, hse]

/-- C19. Together with `C18_documented_units`: a number and a documented unit are read as that many of that unit. -/
theorem C19_parse_documented (n k : Nat) (c s : String) (sp : List String) (h : (c, sp) ∈ documentedUnits) (hs : s ∈ sp) :
    ∃ td, parse (n.repr ++ String.ofList (List.replicate k ' ') ++ s) = .ok td ∧ td.times = [(c, (n : Int))] := by
  obtain ⟨td, h1, h2⟩ := C18_documented_units c s sp (n : Int) h hs
  refine ⟨td, ?_, h2⟩
  have hl : ∀ x ∈ documentedUnits, ∀ s ∈ x.2, s.toList ≠ [] ∧
      ∀ c ∈ s.toList, ('a' ≤ c ∧ c ≤ 'z') ∨ ('A' ≤ c ∧ c ≤ 'Z') := by decide
  obtain ⟨h3, h4⟩ := hl _ h s hs
  have := C19_parse_written n k s.toList h3 h4
  rw [String.ofList_toList] at this
  rw [this, h1]

/-- C19, finding: the documented "any form of capitalization" does not include capitals throughout. -/
theorem C19_upper_case_rejected : parse "2 MINUTES" = .error .keyError := by decide

/-- C19. Negative or fractional numbers and empty units are malformed. -/
example : parse "-2 m" = .error .attributeError ∧ parse "1.5h" = .error .attributeError ∧
    parse "15" = .error .attributeError ∧ parse "2 m" = .ok ⟨[("m", 2)], some (.absolute 2 "m")⟩ := by decide

end FT
