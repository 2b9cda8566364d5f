import Verif.Lemmas.Describe
/-!
# Lemmas about descriptions: features
-/
namespace FT
open Spec

theorem bind_ok' {α β : Type} {x : Except PyErr α} {k : α → Except PyErr β} {b : β} (h : x.bind k = .ok b) :
    ∃ a, x = .ok a ∧ k a = .ok b := by
  cases x with
  | error e => cases h
  | ok a => exact ⟨a, rfl, h⟩

theorem find_lookup {C : List ((String × String) × String)} {entity name : String}
    (h : ∀ x ∈ C, ∀ entity name, x.1.2 ++ x.1.1 = name ++ entity → x.1 = (entity, name)) :
    (C.find? fun k => k.1.2 ++ k.1.1 == name ++ entity) = (C.lookup (entity, name)).map fun d => ((entity, name), d) := by
  induction C with
  | nil => rfl
  | cons x C ih =>
    obtain ⟨⟨e, n⟩, d⟩ := x
    have ih := ih (fun y hy => h y (by simp [hy]))
    rw [List.find?_cons, List.lookup_cons]
    by_cases hk : (entity, name) = (e, n)
    · cases hk; simp
    · have h1 : (n ++ e == name ++ entity) = false := by
        simp only [beq_eq_false_iff_ne, ne_eq]
        intro e'
        exact hk (h ((e, n), d) (by simp) entity name e').symm
      have h2 : ((entity, name) == (e, n)) = false := by simpa using hk
      simp only [h1, h2, ih]

theorem lookup_value_mem {α β : Type} [BEq α] [LawfulBEq α] {l : List (α × β)} {a : α} {b : β} (h : l.lookup a = some b) : (a, b) ∈ l := by
  induction l with
  | nil => cases h
  | cons x l ih =>
    obtain ⟨y, c⟩ := x
    rw [List.lookup_cons] at h
    cases hb : (a == y) with
    | true => simp only [hb, Option.some.injEq] at h; rw [eq_of_beq hb, h]; simp
    | false => simp only [hb] at h; exact List.mem_cons_of_mem _ (ih h)

theorem customFor_entry {C : GCustom} (hc : Clear C) {entity name d : String} (h : Entry C entity name d) :
    customFor C entity name = .ok (some (some d)) := by
  unfold customFor
  rw [find_lookup hc.2]
  rcases h with h | ⟨h1, h2⟩
  · have hd : d ≠ "" := hc.1 _ (lookup_value_mem h)
    simp [h, orGet, hd]
  · simp [h1, h2]

theorem customFor_noEntry {C : GCustom} (hc : Clear C) {entity name : String} (h : NoEntry C entity name) :
    customFor C entity name = .ok none := by
  unfold customFor
  rw [find_lookup hc.2]
  simp [h.1, h.2]

theorem forEach_without {d t : String} (h : WithoutThe d t) : forEach (some d) = "for each " ++ t := by
  unfold forEach
  rcases h with rfl | ⟨rfl, h⟩
  · simp
  · simp only
    rw [if_neg]
    intro e
    refine h (String.ofList (d.toList.drop 4)) (String.toList_inj.mp ?_)
    rw [String.toList_append, String.toList_ofList]
    conv => lhs; rw [← List.take_append_drop 4 d.toList, e]
    simp

theorem groupPhrase_name {C : GCustom} (hc : Clear C) {entity index g : String} (h : GroupName C entity index g) :
    groupPhrase C entity index = .ok (some g) := by
  unfold groupPhrase
  rcases h with h | ⟨h, rfl⟩
  · rw [customFor_entry hc h]; rfl
  · rw [customFor_noEntry hc h]; rfl

theorem entityPhrase_rows (child : String) (prev : Option String) : entityPhrase child prev = rowsPhrase child prev := by
  cases prev <;> rfl

theorem rowsPhrase_ne (child : String) (prev : Option String) : rowsPhrase child prev ≠ "" := by
  cases prev with
  | none =>
    show "of all instances of \"" ++ child ++ "\"" ≠ ""
    simp [String.append_eq_empty_iff]
  | some q =>
    show "of the previous " ++ q ++ " of \"" ++ child ++ "\"" ≠ ""
    simp [String.append_eq_empty_iff]

theorem forEach_ne (t : String) : "for each " ++ t ≠ "" := by
  intro h
  have := congrArg String.toList h
  simp at this

theorem joinPhrases_one {s : String} (h : s ≠ "") : joinPhrases [s, "", "", ""] = s := by
  simp [joinPhrases, h]

theorem joinPhrases_group {s t : String} (h : s ≠ "") : joinPhrases [s, "", "", "for each " ++ t] = s ++ " for each " ++ t := by
  apply String.toList_inj.mp
  simp [joinPhrases, h, String.intercalate_cons_cons, String.intercalate_singleton]

theorem joinPhrases_agg {s r t : String} (h : s ≠ "") (hr : r ≠ "") :
    joinPhrases [s, r, "", "for each " ++ t] = s ++ " " ++ r ++ "" ++ " for each " ++ t := by
  apply String.toList_inj.mp
  simp [joinPhrases, h, hr, String.intercalate_cons_cons, String.intercalate_singleton]

theorem joinPhrases_where {s r d v t : String} (h : s ≠ "") (hr : r ≠ "") :
    joinPhrases [s, r, "where " ++ d ++ " is " ++ v, "for each " ++ t] = s ++ " " ++ r ++ (" where " ++ d ++ " is " ++ v) ++ " for each " ++ t := by
  have hw : "where " ++ d ++ " is " ++ v ≠ "" := by
    intro h
    have := congrArg String.toList h
    simp at this
  apply String.toList_inj.mp
  simp [joinPhrases, h, hr, hw, String.intercalate_cons_cons, String.intercalate_singleton]

section
variable {upper : String → String} {C : GCustom}

theorem bind_suffix {X : Except PyErr (Option String)} {d s : String} (h : (X.bind fun d => .ok d) = .ok (some d)) :
    (X.bind fun d => match d with | some d => Except.ok (some (d ++ " for" ++ s)) | none => .error .typeError) =
      .ok (some (d ++ " for" ++ s)) := by
  cases X with
  | error e => cases h
  | ok x => cases h; rfl

/-- With a suffix, a feature that is not direct is described as without, and the suffix follows. -/
theorem generate_suffix {f : GFeat} (hf : ∀ q e n l w, f ≠ .mk (.direct q) e n l w) {d s : String}
    (h : generate upper C none f = .ok (some d)) : generate upper C (some s) f = .ok (some (d ++ " for" ++ s)) := by
  obtain ⟨kind, entity, name, bases, wh⟩ := f
  cases kind with
  | direct q => exact absurd rfl (hf q entity name bases wh)
  | _ =>
    simp only [generate] at h ⊢
    exact bind_suffix h

theorem generate_through {f g : GFeat} {s : String} (h : Through f g s) (t : String) :
    generate upper C (some t) f = generate upper C (some (s ++ t)) g := by
  induction h generalizing t with
  | last _ => simp only [generate, generateHead]
  | step _ ih => simp only [generate, generateHead]; rw [ih]; simp [String.append_assoc]

theorem through_end {f g : GFeat} {s : String} (h : Through f g s) : ∀ q e n l w, g ≠ .mk (.direct q) e n l w := by
  induction h with
  | last h => exact h
  | step _ ih => exact ih

theorem generate_parent {p e n : String} {bs wh : List GFeat} (h : customFor C e n = .ok none) :
    generate upper C none (.mk (.direct p) e n bs wh) = generate upper C (some (" this instance of \"" ++ e ++ "\"")) (.mk (.direct p) e n bs wh) := by
  simp only [generate, h, Except.bind]
  have : " the instance of \"" ++ p ++ "\" associated with this instance of \"" ++ e ++ "\"" =
      " the instance of \"" ++ p ++ "\" associated with" ++ (" this instance of \"" ++ e ++ "\"") := by
    apply String.toList_inj.mp
    simp
  rw [this]
  cases generateHead upper C (" the instance of \"" ++ p ++ "\" associated with" ++ (" this instance of \"" ++ e ++ "\"")) bs <;> rfl

theorem generateList_snoc {fs : List GFeat} {ds : List (Option String)} {g : GFeat} {d : Option String} (hf : generateList upper C fs = .ok ds)
    (hg : generate upper C none g = .ok d) : generateList upper C (fs ++ [g]) = .ok (ds ++ [d]) := by
  induction fs generalizing ds with
  | nil => simp only [generateList] at hf; cases hf; simp [generateList, hg, Except.bind]
  | cons f fs ih =>
    simp only [generateList] at hf
    obtain ⟨a, ha, hf⟩ := bind_ok' hf
    obtain ⟨b, hb, hf⟩ := bind_ok' hf
    cases hf
    simp [generateList, ha, ih hb, Except.bind]

mutual
theorem reads_generate (hc : Clear C) : ∀ {f : GFeat} {d : String}, Reads upper C f d → generate upper C none f = .ok (some d)
  | _, _, .custom (k := k) h => by
    cases k <;> simp [generate, customFor_entry hc h, Except.bind]
  | _, _, .column h => by simp [generate, customFor_noEntry hc h, Except.bind]
  | _, _, .parent h ht hg => by
    rw [generate_parent (customFor_noEntry hc h), generate_through ht, generate_suffix (through_end ht) (reads_generate hc hg)]
    simp [String.append_assoc]
  | _, _, .transform h hb hs hn => by
    simp [generate, customFor_noEntry hc h, Except.bind, readsAll_generate hc hb, finish, GKind.prim, primDescription_says hs,
      generateWhere, joinPhrases_one hn, forEach]
  | _, _, .groupby h hb hg hw hs hn => by
    simp [generate, customFor_noEntry hc h, Except.bind, generateList_snoc (readsAll_generate hc hb) (reads_generate hc hg), finish, GKind.prim,
      primDescription_says hs, generateWhere, forEach_without hw, joinPhrases_group hn]
  | _, _, .agg h hb hs hn hcond hgn hw => by
    obtain ⟨w, hw1, hw2⟩ := condition_generate hc hcond
    simp [generate, customFor_noEntry hc h, Except.bind, readsAll_generate hc hb, finish, GKind.prim,
      primDescription_says hs, hw1, groupPhrase_name hc hgn, forEach_without hw, entityPhrase_rows]
    exact hw2 hn
  | _, _, .transformOutput h hb hs hn => by
    simp [generate, generateSlice, customFor_noEntry hc h, Except.bind, readsAll_generate hc hb, finish, GKind.prim, primDescription_says hs,
      generateWhere, joinPhrases_one hn, forEach]
  | _, _, .aggOutput h hb hs hn hcond hgn hw => by
    obtain ⟨w, hw1, hw2⟩ := condition_generate hc hcond
    simp [generate, generateSlice, customFor_noEntry hc h, Except.bind, readsAll_generate hc hb, finish, GKind.prim,
      primDescription_says hs, hw1, groupPhrase_name hc hgn, forEach_without hw, entityPhrase_rows]
    exact hw2 hn
theorem readsAll_generate (hc : Clear C) : ∀ {fs : List GFeat} {ds : List String}, ReadsAll upper C fs ds →
    generateList upper C fs = .ok (ds.map some)
  | _, _, .nil => by simp [generateList]
  | _, _, .cons h hs => by simp [generateList, reads_generate hc h, readsAll_generate hc hs, Except.bind]
theorem condition_generate (hc : Clear C) : ∀ {wh : List GFeat} {w : String}, Condition upper C wh w →
    ∃ v, generateWhere upper C wh = .ok v ∧ ∀ {s t : String} {child prev}, s ≠ "" →
      joinPhrases [s, rowsPhrase child prev, v, "for each " ++ t] = s ++ " " ++ rowsPhrase child prev ++ w ++ " for each " ++ t
  | _, _, .none => ⟨"", by simp [generateWhere], fun h => joinPhrases_agg h (rowsPhrase_ne _ _)⟩
  | _, _, .some (p := p) (v := v) (d := d) h hv => ⟨"where " ++ d ++ " is " ++ v, by
      simp [generateWhere, generateCondition, reads_generate hc h, Except.bind, GKind.prim, hv, argText],
      fun h => joinPhrases_where h (rowsPhrase_ne _ _)⟩
end

end

end FT
