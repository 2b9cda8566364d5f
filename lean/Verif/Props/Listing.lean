import Verif.Lemmas.Listing
import Verif.Props.DfsInput
/-!
# Listing and loading primitives (C77)
-/
namespace FT
open FT.Spec

/-! ## The list of primitives -/

/-- C77. `list_primitives()` lists the aggregation primitives and then the transform primitives, each name once with the kind, the
description, the types of the inputs and the type of the result of the class of that name, and no others: a name is listed exactly if
`dfs` takes it. -/
theorem C77_listed (lib : Library) (info : LibClass → PrimInfo) (order : List String → List String) (ho : ∀ l, (lib.setOrder l).Perm l)
    (hs : ∀ l, (order l).Perm l) (ha : LowerNamesApart lib true) (ht : LowerNamesApart lib false) :
    ∃ aggs trans, listPrimitives lib info order = aggs ++ trans ∧
      (∀ r ∈ aggs, r.kind = "aggregation" ∧ ∃ c, Offers lib true r.name c ∧ RowFor info c r) ∧
      (∀ r ∈ trans, r.kind = "transform" ∧ ∃ c, Offers lib false r.name c ∧ RowFor info c r) ∧
      (aggs.map PrimRow.name).Nodup ∧ (trans.map PrimRow.name).Nodup ∧
      (∀ n c, Offers lib true n c → ∃ r ∈ aggs, r.name = n) ∧ (∀ n c, Offers lib false n c → ∃ r ∈ trans, r.name = n) := by
  have h1 := fun n c => lookup_offered ho true ha (n := n) (c := c)
  have h2 := fun n c => lookup_offered ho false ht (n := n) (c := c)
  simp only [if_true] at h1
  simp only [Bool.false_eq_true, if_false] at h2
  obtain ⟨a1, a2, a3⟩ := rowsOf_spec (info := info) hs (kind := "aggregation") (byLowerName_keys _ _) h1
  obtain ⟨b1, b2, b3⟩ := rowsOf_spec (info := info) hs (kind := "transform") (byLowerName_keys _ _) h2
  exact ⟨_, _, rfl, a2, b2, a1, b1, a3, b3⟩

/-! ## Files with primitives -/

/-- C77. `list_primitive_files` gives the paths of the files that may hold primitives; what is a directory is decided as seen from where
the program runs. -/
theorem C77_files (isdir : List Char → Bool) (dir : List Char) (files : List (List Char)) (hf : ∀ f ∈ files, f ≠ [] ∧ '/' ∉ f) :
    ∃ r, keepFiles isdir dir files = .ok r ∧ ∀ p, p ∈ r ↔ ∃ f ∈ files, isdir f = false ∧ PrimitiveFileName f ∧ PathIn dir f p :=
  keepFiles_spec isdir dir files hf

/-- C77. The paths come in the order of the directory, one for each file that may hold primitives. -/
theorem C77_files_each (isdir : List Char → Bool) (dir : List Char) (files : List (List Char)) (hf : ∀ f ∈ files, f ≠ [] ∧ '/' ∉ f)
    (keep : List Char → Bool) (hk : ∀ f, keep f = true ↔ isdir f = false ∧ PrimitiveFileName f) :
    ∃ r, keepFiles isdir dir files = .ok r ∧ EachOf (PathIn dir) (files.filter keep) r :=
  keepFiles_each isdir dir keep hk files hf

/-- C77. In the directory where the program runs, these are exactly the files (and not the directories) that may hold primitives. -/
theorem C77_files_here_partial (isdir : List Char → Bool) (dir : List Char) (files : List (List Char)) (hf : ∀ f ∈ files, f ≠ [] ∧ '/' ∉ f)
    (here : ∀ f ∈ files, ∀ p, PathIn dir f p → isdir f = isdir p) :
    ∃ r, keepFiles isdir dir files = .ok r ∧ ∀ p, p ∈ r ↔ isdir p = false ∧ ∃ f ∈ files, PrimitiveFileName f ∧ PathIn dir f p := by
  obtain ⟨r, h1, h2⟩ := keepFiles_spec isdir dir files hf
  refine ⟨r, h1, fun p => (h2 p).trans ⟨?_, ?_⟩⟩
  · rintro ⟨f, hm, h3, h4, h5⟩
    exact ⟨by rw [← here f hm p h5]; exact h3, f, hm, h4, h5⟩
  · rintro ⟨h3, f, hm, h4, h5⟩
    exact ⟨f, hm, by rw [here f hm p h5]; exact h3, h4, h5⟩

/-- C77. A file is loaded exactly if one of the names it leaves in its module holds a primitive class other than the two bases, and it
gives this name and this class; otherwise it is a `RuntimeError`. An exception of the file comes through. -/
theorem C77_loaded (vars : List ModVar) (n : String) (c : Nat) :
    (loadPrimitive (.ok vars) = .ok (n, c) ↔ ∃ pre v post, vars = pre ++ v :: post ∧ HoldsPrimitive v ∧ v.name = n ∧ v.cls = some c ∧
      ∀ w ∈ pre ++ post, ¬HoldsPrimitive w) ∧
    ((¬∃ pre v post, vars = pre ++ v :: post ∧ HoldsPrimitive v ∧ ∀ w ∈ pre ++ post, ¬HoldsPrimitive w) →
      loadPrimitive (.ok vars) = .error .runtimeError) ∧
    (∀ e, loadPrimitive (.error e) = .error e) := by
  rw [loadPrimitive_counted]
  refine ⟨⟨?_, ?_⟩, ?_, fun e => rfl⟩
  · intro h
    cases e : vars.filterMap countedVar with
    | nil => rw [e] at h; cases h
    | cons p l =>
      cases l with
      | cons q l => rw [e] at h; cases h
      | nil =>
        rw [e] at h
        cases h
        obtain ⟨pre, v, post, h1, h2, h3⟩ := filterMap_single e
        obtain ⟨a, b, d⟩ := counted_some.mp h2
        exact ⟨pre, v, post, h1, a, b, d, fun w hw => counted_none.mp (h3 w hw)⟩
  · rintro ⟨pre, v, post, h1, h2, h3, h4, h5⟩
    rw [filterMap_of_single h1 (counted_some (p := (n, c)).mpr ⟨h2, h3, h4⟩) fun w hw => counted_none.mpr (h5 w hw)]
  · intro hno
    cases e : vars.filterMap countedVar with
    | nil => rfl
    | cons p l =>
      cases l with
      | cons q l => rfl
      | nil =>
        exfalso
        obtain ⟨pre, v, post, h1, h2, h3⟩ := filterMap_single e
        exact hno ⟨pre, v, post, h1, (counted_some.mp h2).1, fun w hw => counted_none.mp (h3 w hw)⟩

/-- C77. A file that defines one primitive, under one name, and imports no class of a primitive but the two bases, gives this primitive. -/
theorem C77_defined_partial (vars : List ModVar) (v : ModVar) (c : Nat) (hn : (vars.map ModVar.name).Nodup) (hv : v ∈ vars) (hc : v.cls = some c)
    (hp : v.primitive = true) (hb : v.base = false) (hone : ∀ w ∈ vars, w.defined = true → w.primitive = true → w = v)
    (himp : ∀ w ∈ vars, w.defined = false → w.primitive = true → w.base = true) : loadPrimitive (.ok vars) = .ok (v.name, c) := by
  obtain ⟨pre, post, rfl⟩ := List.append_of_mem hv
  refine (C77_loaded _ _ _).1.mpr ⟨pre, v, post, rfl, ⟨by simp [hc], hp, hb⟩, rfl, hc, ?_⟩
  intro w hw hh
  have hmem : w ∈ pre ++ v :: post := by
    rcases List.mem_append.mp hw with h | h
    · exact List.mem_append_left _ h
    · exact List.mem_append_right _ (List.mem_cons_of_mem _ h)
  have hwv : w ≠ v := by
    rintro rfl
    rw [List.map_append, List.map_cons, List.nodup_append] at hn
    rcases List.mem_append.mp hw with h | h
    · exact hn.2.2 _ (List.mem_map.mpr ⟨w, h, rfl⟩) _ List.mem_cons_self rfl
    · exact (List.nodup_cons.mp hn.2.1).1 (List.mem_map.mpr ⟨w, h, rfl⟩)
  cases hd : w.defined with
  | true => exact hwv (hone w hmem hd hh.2.1)
  | false =>
    have := himp w hmem hd hh.2.1
    rw [hh.2.2] at this
    cases this

/-! ## Primitives of other libraries -/

/-- C77. What other libraries register: an attribute of the module of primitives is one that was registered under this name, if there is
one, and what it was otherwise; entry points that cannot be loaded change nothing. -/
theorem C77_registered (attrs : List (String × LibClass)) (eps : List (Option (List EntryItem))) (n : String) :
    (∀ c, RegisteredAs eps n c → (∀ d, RegisteredAs eps n d → d = c) → (registerAll attrs eps).lookup n = some c) ∧
    ((∀ c, ¬RegisteredAs eps n c) → (registerAll attrs eps).lookup n = attrs.lookup n) ∧
    ((∃ c, RegisteredAs eps n c) → ∃ c, RegisteredAs eps n c ∧ (registerAll attrs eps).lookup n = some c) := by
  obtain ⟨h1, h2, h3⟩ := registerAll_lookup eps attrs n
  refine ⟨fun c hc hu => ?_, h2, h3⟩
  obtain ⟨d, hd, hl⟩ := h3 ⟨c, hc⟩
  rw [hl, hu d hd]

/-- C77. So a registered primitive with a name of its own can be asked for by its name. -/
theorem C77_registered_offered (lib : Library) (eps : List (Option (List EntryItem))) (n : String) (c : LibClass) (hc : RegisteredAs eps n c)
    (hu : ∀ d, RegisteredAs eps n d → d = c) (hname : c.name ≠ "") :
    (c.aggregation = true → Offers { lib with attrs := registerAll lib.attrs eps } true (lib.lower c.name) c) ∧
    (c.transform = true → Offers { lib with attrs := registerAll lib.attrs eps } false (lib.lower c.name) c) := by
  have hl := (C77_registered lib.attrs eps n).1 c hc hu
  have hm : ∀ (l : List (String × LibClass)), l.lookup n = some c → (n, c) ∈ l := by
    intro l
    induction l with
    | nil => intro h; cases h
    | cons p l ih =>
      intro h
      obtain ⟨k, d⟩ := p
      rw [List.lookup_cons] at h
      by_cases hk : n = k
      · subst hk; rw [beq_self_eq_true] at h; cases h; exact List.mem_cons_self
      · rw [beq_false_of_ne hk] at h; exact List.mem_cons_of_mem _ (ih h)
  exact ⟨fun h => ⟨⟨n, hm _ hl⟩, h, hname, rfl⟩, fun h => ⟨⟨n, hm _ hl⟩, h, hname, rfl⟩⟩

/-! ## Concrete cases -/

namespace ListExample
open RawExample
/-- What is known of the three classes. -/
def lInfo (c : LibClass) : PrimInfo :=
  if c = cAdd then ⟨some "Adds.\n\nMore.", true, true, [.type "Numeric", .type "Numeric"], some "Numeric"⟩
  else if c = cSum then ⟨some "Sums.", true, false, [.type "Numeric"], some "Numeric"⟩
  else ⟨none, true, true, [.list [.type "Index"], .list [.type "Id", .type "Index"]], some "Numeric"⟩

/-- The list of the three primitives. -/
example : listPrimitives rawLib lInfo id =
    [⟨"count", "aggregation", true, true, "", "Index, Id", some "Numeric"⟩, ⟨"sum", "aggregation", true, false, "Sums.", "Numeric", some "Numeric"⟩,
     ⟨"add_numeric", "transform", true, true, "Adds.", "Numeric", some "Numeric"⟩] := by decide +kernel

/-- The hypotheses of `C77_listed` are met. -/
example : ∃ aggs trans, listPrimitives rawLib lInfo id = aggs ++ trans ∧ (∀ n c, Offers rawLib true n c → ∃ r ∈ aggs, r.name = n) := by
  obtain ⟨a, t, h, _, _, _, _, h6, _⟩ := C77_listed rawLib lInfo id order (fun l => .refl l) (apart true) (apart false)
  exact ⟨a, t, h, h6⟩

/-- Of five files, two may hold primitives. -/
example : keepFiles (fun f => f == "sub.py".toList) "prims".toList ["a.py".toList, ".b.py".toList, "__init__.py".toList, "c.txt".toList, "_d.py".toList, "sub.py".toList] =
    .ok ["prims/a.py".toList, "prims/_d.py".toList] := by decide +kernel

/-- A file that defines a primitive and imports a base. -/
example : loadPrimitive (.ok [⟨"AggregationPrimitive", some 1, true, true, false⟩, ⟨"np", none, false, false, false⟩, ⟨"Mine", some 7, true, false, true⟩]) = .ok ("Mine", 7) := rfl

/-- Two libraries, one of which cannot be loaded. -/
example : registerAll [("Sum", cSum)] [none, some [.cls "Mine" cSum2, .cls "Helper" ⟨9, "x", false, false, 0, .error .typeError⟩]] = [("Sum", cSum), ("Mine", cSum2)] := rfl
end ListExample

/-! ## Where the code does something else -/

/-- C77 fails for files: a directory `sub.py` in `prims` is listed as a file with primitives, and the file `prims/a.py` is left out if
there is a directory `a.py` where the program runs. -/
theorem C77_directories_violated :
    (∃ isdir : List Char → Bool, isdir "prims/sub.py".toList = true ∧ keepFiles isdir "prims".toList ["sub.py".toList] = .ok ["prims/sub.py".toList]) ∧
    (∃ isdir : List Char → Bool, isdir "prims/a.py".toList = false ∧ keepFiles isdir "prims".toList ["a.py".toList] = .ok []) :=
  ⟨⟨fun f => f == "prims/sub.py".toList, by decide +kernel, by decide +kernel⟩, ⟨fun f => f == "a.py".toList, by decide +kernel, by decide +kernel⟩⟩

/-- C77 fails for files that define one primitive: if it extends an imported primitive, or imports `PrimitiveBase`, there is "more than one"; and
a file that defines none but imports one is loaded. -/
theorem C77_imports_violated :
    loadPrimitive (.ok [⟨"Sum", some 1, true, false, false⟩, ⟨"MySum", some 7, true, false, true⟩]) = .error .runtimeError ∧
    loadPrimitive (.ok [⟨"PrimitiveBase", some 0, true, false, false⟩, ⟨"Mine", some 7, true, false, true⟩]) = .error .runtimeError ∧
    loadPrimitive (.ok [⟨"Sum", some 1, true, false, false⟩]) = .ok ("Sum", 1) := ⟨rfl, rfl, rfl⟩

open RawExample in
/-- C77 fails for other libraries: what follows something that is no class in their list is lost without a word, and a class named like one
of the library's replaces it. -/
theorem C77_entry_points_violated :
    (registerAll [("Sum", cSum)] [some [.other, .cls "Mine" cSum2]]).lookup "Mine" = none ∧
    (registerAll [("Sum", cSum)] [some [.cls "Sum" cSum2]]).lookup "Sum" = some cSum2 := by decide +kernel

/-- C77 fails for a path that ends with `/`: no answer but an `IndexError`. -/
theorem C77_empty_name_violated : checkValidPrimitivePath (fun _ => false) "prims/".toList = .error .indexError := by decide +kernel

end FT
