import Verif.Lemmas.VarTypes
/-!
# Variable types are known by their names (C76)
-/
namespace FT
open FT.Spec

/-! ## Type strings -/

/-- C76. The type string of a class is its name in lower case, with an underscore before every capital letter (but the first character)
that is followed by a small letter or preceded by a small letter or a digit. -/
theorem C76_type_string (c : VClass) (s : String) : c.typeString = s ↔ Snake c.name.toList s.toList := by
  rw [← camelToSnake_iff, VClass.typeString, ← String.toList_inj, String.toList_ofList]

/-- C76. Names in camel case have different type strings. -/
theorem C76_camel_case (c d : VClass) (hc : CamelCase c.name.toList) (hd : CamelCase d.name.toList) (h : c.typeString = d.typeString) :
    c.name = d.name := by
  have h1 := (C76_type_string c _).mp h
  have h2 := (C76_type_string d _).mp rfl
  rw [← String.toList_inj]
  obtain ⟨a1, ⟨x, hx, hxc⟩, a3⟩ := hc
  obtain ⟨b1, ⟨y, hy, hyc⟩, b3⟩ := hd
  generalize c.name.toList = s at *
  generalize d.name.toList = s' at *
  generalize d.typeString.toList = t at *
  cases s with
  | nil => cases hx
  | cons u s =>
    cases s' with
    | nil => cases hy
    | cons u' s' =>
      cases hx
      cases hy
      generalize ht : t = t0 at h2
      cases h1 with
      | cons h1 =>
        cases h2 with
        | cons h2 =>
          simp only [List.cons.injEq] at ht
          obtain ⟨e, rfl⟩ := ht
          have := congrArg Char.toNat e
          rw [toLower_nat, toLower_nat, if_pos (capital_nat.mp hxc), if_pos (capital_nat.mp hyc)] at this
          obtain rfl : x = y := char_eq_of_nat (by omega)
          rw [camel_step (Or.inl hxc) (fun c hc => a1 c (List.mem_cons_of_mem _ hc)) (fun c hc => b1 c (List.mem_cons_of_mem _ hc)) a3 b3 h1 h2]

/-! ## Finding and listing types -/

/-- C76. A type string leads to the class that has it; one that no class has leads nowhere. -/
theorem C76_found (T : VTypes) (ha : TypeStringsApart T) (s : String) (c : VClass) :
    (findVariableTypes T).lookup s = some c ↔ KnownType T c ∧ c.typeString = s := find_iff ha

/-- C76, whatever the type strings are: a type string leads to a class that has it, if there is one. -/
theorem C76_found_one (T : VTypes) (s : String) :
    (∀ c, (findVariableTypes T).lookup s = some c → KnownType T c ∧ c.typeString = s) ∧
    ((findVariableTypes T).lookup s = none ↔ ∀ c, KnownType T c → c.typeString ≠ s) :=
  ⟨fun _ => find_some, find_none⟩

/-- C76. The list of types has one row for every type string, with the name and the description of its class. -/
theorem C76_listed (T : VTypes) (ha : TypeStringsApart T) :
    ((listVariableTypes T).map VRow.typeString).Nodup ∧
    ∀ r, r ∈ listVariableTypes T ↔ ∃ c, KnownType T c ∧ r = ⟨c.name, c.typeString, c.doc⟩ := by
  rw [listVariableTypes_eq]
  constructor
  · rw [List.map_map]; exact find_nodup T
  · intro r
    rw [List.mem_map]
    constructor
    · rintro ⟨⟨s, c⟩, hm, rfl⟩
      obtain ⟨h1, rfl⟩ := find_some ((vt_mem_of_lookup (find_nodup T)).mpr hm)
      exact ⟨c, h1, rfl⟩
    · rintro ⟨c, hc, rfl⟩
      exact ⟨(c.typeString, c), (vt_mem_of_lookup (find_nodup T)).mp ((find_iff ha).mpr ⟨hc, rfl⟩), rfl⟩

/-! ## Types given by name, and saved types -/

/-- C76. A type given by its type string is the class that has it, `Text` for its own; any other text is the unknown type. -/
theorem C76_given (T : VTypes) (ha : TypeStringsApart T) (ht : ∀ c, KnownType T c → c.typeString ≠ T.text.typeString) (s : String) :
    (∀ c, KnownType T c ∨ c = T.text → c.typeString = s → typeFor T s = some c) ∧
    ((∀ c, KnownType T c ∨ c = T.text → c.typeString ≠ s) → ∀ u, KnownType T u → u.typeString = "unknown" → typeFor T s = some u) := by
  unfold typeFor
  simp only [lookup_putKey]
  constructor
  · rintro c (hc | rfl) rfl
    · rw [if_neg (ht c hc), (find_iff ha).mpr ⟨hc, rfl⟩]
    · rw [if_pos rfl]
  · intro h u hu hn
    rw [if_neg (fun e => h T.text (Or.inr rfl) e.symm), find_none.mpr fun c hc => h c (Or.inl hc)]
    dsimp only
    rw [if_neg (fun e => ht u hu (by rw [hn, e])), (find_iff ha).mpr ⟨hu, hn⟩]

/-- C76. Saving and loading keeps the type of a variable, for every class below `Variable`. -/
theorem C76_reloaded (T : VTypes) (ha : TypeStringsApart T) (ht : ∀ c, KnownType T c → c.typeString ≠ T.text.typeString) (c : VClass)
    (hc : KnownType T c ∨ c = T.text) : reloadType T c = some c :=
  (C76_given T ha ht _).1 c hc rfl

/-- C76, whatever the type strings are: what is loaded has the type string that was saved, or is the unknown type. -/
theorem C76_reloaded_like (T : VTypes) (c d : VClass) (h : reloadType T c = some d) :
    d.typeString = c.typeString ∨ d.typeString = "unknown" := by
  unfold reloadType typeFor saveType at h
  simp only [lookup_putKey] at h
  by_cases h1 : c.typeString = T.text.typeString
  · rw [if_pos h1] at h
    cases h
    exact Or.inl h1.symm
  · rw [if_neg h1] at h
    cases e : (findVariableTypes T).lookup c.typeString with
    | some x => rw [e] at h; cases h; exact Or.inl (find_some e).2
    | none =>
      rw [e] at h
      dsimp only at h
      by_cases h2 : "unknown" = T.text.typeString
      · rw [if_pos h2] at h; cases h; exact Or.inr h2.symm
      · rw [if_neg h2] at h; exact Or.inr (find_some h).2

/-! ## The classes of the library -/

namespace VExample
/-- A class, with its name. -/
def k (i : Nat) (n : String) : VClass := ⟨i, n, none⟩
/-- A class without subclasses. -/
def leaf (i : Nat) (n : String) : VTree := .node (k i n) []
def root : VClass := k 0 "Variable"
def textT : VClass := k 1 "Text"
def subs : List VTree :=
  [leaf 2 "Unknown",
   .node (k 3 "Discrete") [.node (k 4 "Categorical") [leaf 5 "Id", leaf 6 "ZIPCode", leaf 7 "CountryCode", leaf 8 "SubRegionCode"], leaf 9 "Ordinal"],
   leaf 10 "Boolean", .node (k 11 "Numeric") [leaf 12 "NumericTimeIndex"], leaf 13 "Index",
   .node (k 14 "Datetime") [leaf 15 "DatetimeTimeIndex", leaf 16 "DateOfBirth"],
   .node (k 17 "TimeIndex") [leaf 12 "NumericTimeIndex", leaf 15 "DatetimeTimeIndex"], leaf 18 "Timedelta",
   .node (k 19 "NaturalLanguage") [.node textT []], leaf 20 "LatLong", leaf 21 "IPAddress", leaf 22 "FullName", leaf 23 "EmailAddress", leaf 24 "URL",
   leaf 25 "PhoneNumber", leaf 26 "FilePath"]
/-- The classes of `variable_types/variable.py` (139-431). -/
def builtin : VTypes := ⟨root, textT, subs⟩

example : (k 21 "IPAddress").typeString = "ip_address" ∧ (k 8 "SubRegionCode").typeString = "sub_region_code" ∧
    (k 6 "ZIPCode").typeString = "zip_code" ∧ (k 24 "URL").typeString = "url" ∧ (k 20 "LatLong").typeString = "lat_long" ∧
    (k 30 "Iso3166Code2X").typeString = "iso3166_code2_x" := by decide +kernel

example : CamelCase "LatLong".toList where
  chars := by
    have : ∀ c ∈ "LatLong".toList, (upperCh c || lowerNumCh c) = true := by decide +kernel
    intro c hc
    have := this c hc
    rwa [Bool.or_eq_true, upperCh_iff, lowerNumCh_iff] at this
  first := ⟨'L', rfl, by decide, by decide⟩
  single := by
    have : ∀ i < 7, ∀ c d, "LatLong".toList[i]? = some c → "LatLong".toList[i + 1]? = some d → (upperCh c && upperCh d) = false := by
      intro i hi c d hc hd
      match i, hi with
      | 0, _ | 1, _ | 2, _ | 3, _ | 4, _ | 5, _ => cases hc; cases hd; decide
      | 6, _ => cases hd
    intro i c d hc hd
    have hi : i < 7 := (List.getElem?_eq_some_iff.mp hc).1
    have := this i hi c d hc hd
    intro ⟨h1, h2⟩
    rw [upperCh_iff.mpr h1, upperCh_iff.mpr h2] at this
    cases this
end VExample

open VExample in
/-- C76. The type strings of the library's own classes are all different, also from that of `Text`, and there is an unknown type: every one
of them is found by its type string and kept in files. -/
theorem C76_builtin : TypeStringsApart builtin ∧ (∀ c, KnownType builtin c → c.typeString ≠ textT.typeString) ∧
    (∃ u, KnownType builtin u ∧ u.typeString = "unknown") ∧ (listVariableTypes builtin).length = 25 := by
  have hall : ∀ c ∈ ((VTree.node builtin.root builtin.subs).walk.filter fun c => c != builtin.root && c != builtin.text),
      c.typeString ≠ textT.typeString ∧ ∀ d ∈ ((VTree.node builtin.root builtin.subs).walk.filter fun c => c != builtin.root && c != builtin.text),
      c.typeString = d.typeString → c = d := by decide +kernel
  refine ⟨fun c d hc hd => (hall c (mem_known.mpr hc)).2 d (mem_known.mpr hd), fun c hc => (hall c (mem_known.mpr hc)).1,
    ⟨k 2 "Unknown", mem_known.mp (by decide +kernel), by decide +kernel⟩, by decide +kernel⟩

/-! ## Where types are confused -/

open VExample in
/-- C76 fails for `Variable` itself: a variable of this type comes back as one of unknown type. -/
theorem C76_plain_variable_violated : reloadType builtin root = some (k 2 "Unknown") ∧ root ≠ k 2 "Unknown" := by decide +kernel

open VExample in
/-- C76 fails for names that differ in more than their type strings do: once a class `IpAddress` is defined, variables of type
`IPAddress` come back as the new type, `"ip_address"` means the new type, and the old one is not listed. -/
theorem C76_same_string_violated :
    ∃ T : VTypes, KnownType T (k 21 "IPAddress") ∧ KnownType T (k 40 "IpAddress") ∧ reloadType T (k 21 "IPAddress") = some (k 40 "IpAddress") ∧
      typeFor T "ip_address" = some (k 40 "IpAddress") ∧ ∀ r ∈ listVariableTypes T, r.name ≠ "IPAddress" :=
  ⟨{ builtin with subs := subs ++ [leaf 40 "IpAddress"] }, mem_known.mp (by decide +kernel), mem_known.mp (by decide +kernel),
    by decide +kernel, by decide +kernel, by decide +kernel⟩

open VExample in
/-- C76 fails for a class of the user named like one of the library in another case, or `Text`: variables of the user's own `Text` come back
as the library's. -/
theorem C76_own_text_violated :
    ∃ T : VTypes, KnownType T (k 41 "Text") ∧ reloadType T (k 41 "Text") = some textT ∧ textT ≠ k 41 "Text" :=
  ⟨{ builtin with subs := subs ++ [leaf 41 "Text"] }, mem_known.mp (by decide +kernel), by decide +kernel, by decide⟩

end FT
