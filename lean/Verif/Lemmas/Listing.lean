import Verif.Spec.Listing
import Verif.Lemmas.DfsInput
import Verif.Lemmas.VarTypes
/-! Lemmas about listing and loading primitives. -/
namespace FT
open Spec

mutual
theorem mem_names : ∀ (s : InputSig) (n : String), n ∈ s.names ↔ TakesType n s
  | .type m, n => by
    rw [InputSig.names, List.mem_singleton]
    constructor
    · rintro rfl; exact .type
    · intro h; cases h; rfl
  | .list l, n => by
    rw [InputSig.names, mem_namesL l n]
    constructor
    · rintro ⟨s, hs, h⟩; exact .list hs h
    · intro h; cases h with | list hs h => exact ⟨_, hs, h⟩
theorem mem_namesL : ∀ (l : List InputSig) (n : String), n ∈ InputSig.namesL l ↔ ∃ s ∈ l, TakesType n s
  | [], n => by simp [InputSig.namesL]
  | s :: l, n => by
    rw [InputSig.namesL, List.mem_append, mem_names s n, mem_namesL l n]
    simp
end

theorem firstLine_spec (s : String) : FirstLineOf s (firstLine s) := by
  constructor
  · rw [firstLine, String.toList_ofList]
    intro h
    have := List.all_takeWhile (p := fun c => c != '\n') (l := s.toList)
    have := List.all_eq_true.mp this _ h
    simp at this
  · have hsplit := List.takeWhile_append_dropWhile (p := fun c => c != '\n') (l := s.toList)
    cases hd : s.toList.dropWhile fun c => c != '\n' with
    | nil =>
      left
      rw [hd, List.append_nil] at hsplit
      rw [← String.toList_inj, firstLine, String.toList_ofList, hsplit]
    | cons c rest =>
      right
      have hc : c = '\n' := by
        have := List.head?_dropWhile_not (p := fun c => c != '\n') (l := s.toList)
        rw [hd] at this
        simpa using this
      subst hc
      refine ⟨String.ofList rest, ?_⟩
      rw [← String.toList_inj, String.toList_append, String.toList_append, firstLine, String.toList_ofList, String.toList_ofList,
        List.append_assoc]
      conv => lhs; rw [← hsplit, hd]
      rw [String.toList_ofList]
      rfl

theorem byLowerName_keys (lower : String → String) (cs : List LibClass) : ((byLowerName lower cs).map Prod.fst).Nodup := by
  induction cs with
  | nil => simp [byLowerName]
  | cons c cs ih =>
    simp only [byLowerName]
    split
    · rw [List.map_cons, List.nodup_cons]
      refine ⟨?_, ?_⟩
      · intro h
        obtain ⟨p, hp, he⟩ := List.mem_map.mp h
        have := (List.mem_filter.mp hp).2
        simp [he] at this
      · exact List.Pairwise.sublist (List.Sublist.map _ List.filter_sublist) ih
    · next h =>
      rw [List.map_cons, List.nodup_cons]
      refine ⟨?_, ih⟩
      intro hm
      obtain ⟨⟨k, d⟩, hp, he⟩ := List.mem_map.mp hm
      have := (vt_mem_of_lookup ih).mpr hp
      dsimp only at he
      rw [he] at this
      rw [this] at h
      cases h

theorem rowsOf_spec {lib : Library} {info : LibClass → PrimInfo} {order : List String → List String} (ho : ∀ l, (order l).Perm l)
    {agg : Bool} {kind : String} {d : List (String × LibClass)} (hd : (d.map Prod.fst).Nodup)
    (h : ∀ n c, d.lookup n = some c ↔ Offers lib agg n c) :
    ((rowsOf info order kind d).map PrimRow.name).Nodup ∧
    (∀ r ∈ rowsOf info order kind d, r.kind = kind ∧ ∃ c, Offers lib agg r.name c ∧ RowFor info c r) ∧
    (∀ n c, Offers lib agg n c → ∃ r ∈ rowsOf info order kind d, r.name = n) := by
  have hmap : (rowsOf info order kind d).map PrimRow.name = d.map Prod.fst := by
    unfold rowsOf; rw [List.map_map]; rfl
  refine ⟨by rw [hmap]; exact hd, ?_, ?_⟩
  · intro r hr
    obtain ⟨⟨n, c⟩, hp, rfl⟩ := List.mem_map.mp hr
    refine ⟨rfl, c, (h n c).mp ((vt_mem_of_lookup hd).mpr hp), ?_⟩
    refine ⟨rfl, rfl, ?_, ?_, ?_, rfl⟩
    · intro t ht
      dsimp only
      rw [description, ht]
      exact firstLine_spec t
    · intro ht
      dsimp only
      rw [description, ht]
    · refine ⟨_, ((ho _).nodup_iff).mpr (nodup_dedup _), ?_, rfl⟩
      intro m
      rw [(ho _).mem_iff, mem_dedup, mem_namesL]
  · intro n c hc
    have := (vt_mem_of_lookup hd).mp ((h n c).mpr hc)
    exact ⟨_, List.mem_map.mpr ⟨_, this, rfl⟩, rfl⟩

/-! ## Files -/

theorem baseName_plain {f : List Char} (h : '/' ∉ f) : baseName f = f := by
  unfold baseName
  have : f.reverse.takeWhile (fun c => c != '/') = f.reverse := by
    have : ∀ l : List Char, '/' ∉ l → l.takeWhile (fun c => c != '/') = l := by
      intro l hl
      induction l with
      | nil => rfl
      | cons c l ih =>
        simp only [List.mem_cons, not_or] at hl
        rw [List.takeWhile_cons, if_pos (by simpa using fun e => hl.1 e.symm), ih hl.2]
    exact this _ (by simpa using h)
  rw [this, List.reverse_reverse]

theorem drop_py {f : List Char} : f.drop (f.length - 3) = ['.', 'p', 'y'] ↔ ∃ stem, f = stem ++ ['.', 'p', 'y'] := by
  constructor
  · intro h
    refine ⟨f.take (f.length - 3), ?_⟩
    rw [← h, List.take_append_drop]
  · rintro ⟨stem, rfl⟩
    simp

theorem check_plain (isdir : List Char → Bool) {f : List Char} (h : '/' ∉ f) (hne : f ≠ []) :
    ∃ b, checkValidPrimitivePath isdir f = .ok b ∧ (b = true ↔ isdir f = false ∧ PrimitiveFileName f) := by
  unfold checkValidPrimitivePath
  rw [baseName_plain h]
  by_cases h1 : isdir f = true
  · rw [if_pos h1]; exact ⟨false, rfl, by simp [h1]⟩
  rw [if_neg h1]
  by_cases h2 : f.take 2 = ['_', '_']
  · rw [if_pos h2]
    refine ⟨false, rfl, by simp, ?_⟩
    rintro ⟨_, hp⟩
    refine absurd ?_ (hp.dunder (f.drop 2))
    conv => lhs; rw [← List.take_append_drop 2 f, h2]
    rfl
  rw [if_neg h2]
  cases f with
  | nil => exact absurd rfl hne
  | cons c s =>
    dsimp only
    by_cases h3 : c = '.'
    · rw [if_pos h3]
      refine ⟨false, rfl, by simp, ?_⟩
      rintro ⟨_, hp⟩
      exact absurd (by rw [h3]) (hp.hidden s)
    rw [if_neg h3]
    by_cases h4 : (c :: s).drop ((c :: s).length - 3) ≠ ['.', 'p', 'y']
    · rw [if_pos h4]
      refine ⟨false, rfl, by simp, ?_⟩
      rintro ⟨_, hp⟩
      exact absurd (drop_py.mpr hp.py) h4
    rw [if_neg h4]
    refine ⟨true, rfl, fun _ => ⟨by simpa using h1, drop_py.mp (Classical.not_not.mp h4), ?_, ?_⟩, fun _ => rfl⟩
    · rintro rest e; cases e; exact h3 rfl
    · rintro rest e; rw [e] at h2; exact h2 rfl

theorem joinPath_iff (dir f p : List Char) : joinPath dir f = p ↔ PathIn dir f p := by
  unfold joinPath
  rcases List.eq_nil_or_concat dir with rfl | ⟨d, c, rfl⟩
  · simp only [List.getLast?_nil]
    constructor
    · rintro rfl; exact .here rfl
    · intro h
      cases h with
      | here => rfl
      | slash h => simp at h
      | plain h => simp at h
  · rw [List.concat_eq_append, List.getLast?_concat]
    by_cases hc : c = '/'
    · subst hc
      simp only [if_true]
      constructor
      · rintro rfl; exact .slash rfl
      · intro h
        cases h with
        | here h => simp at h
        | slash h => rfl
        | plain h hn =>
          have := List.append_inj_right' h rfl
          cases this
          exact absurd rfl hn
    · simp only [if_neg hc]
      constructor
      · rintro rfl; exact .plain rfl hc
      · intro h
        cases h with
        | here h => simp at h
        | slash h =>
          have := List.append_inj_right' h rfl
          cases this
          exact absurd rfl hc
        | plain h hn => rfl

theorem keepFiles_spec (isdir : List Char → Bool) (dir : List Char) (files : List (List Char)) (hf : ∀ f ∈ files, f ≠ [] ∧ '/' ∉ f) :
    ∃ r, keepFiles isdir dir files = .ok r ∧ (∀ p, p ∈ r ↔ ∃ f ∈ files, isdir f = false ∧ PrimitiveFileName f ∧ PathIn dir f p) := by
  induction files with
  | nil => exact ⟨[], rfl, by simp⟩
  | cons f fs ih =>
    obtain ⟨r, hr, hm⟩ := ih fun g hg => hf g (List.mem_cons_of_mem _ hg)
    obtain ⟨h1, h2⟩ := hf f List.mem_cons_self
    obtain ⟨b, hb, hbi⟩ := check_plain isdir h2 h1
    refine ⟨if b then joinPath dir f :: r else r, by simp only [keepFiles, hb, hr], ?_⟩
    intro p
    cases b with
    | false =>
      simp only [Bool.false_eq_true, if_false, hm]
      constructor
      · rintro ⟨g, hg, h⟩; exact ⟨g, List.mem_cons_of_mem _ hg, h⟩
      · rintro ⟨g, hg, h3, h4, h5⟩
        rcases List.mem_cons.mp hg with rfl | hg
        · exact absurd (hbi.mpr ⟨h3, h4⟩) (by simp)
        · exact ⟨g, hg, h3, h4, h5⟩
    | true =>
      simp only [if_true, List.mem_cons, hm]
      obtain ⟨h3, h4⟩ := hbi.mp rfl
      constructor
      · rintro (rfl | ⟨g, hg, h⟩)
        · exact ⟨f, Or.inl rfl, h3, h4, (joinPath_iff _ _ _).mp rfl⟩
        · exact ⟨g, Or.inr hg, h⟩
      · rintro ⟨g, rfl | hg, h⟩
        · exact Or.inl ((joinPath_iff _ _ _).mpr h.2.2).symm
        · exact Or.inr ⟨g, hg, h⟩

theorem keepFiles_each (isdir : List Char → Bool) (dir : List Char) (keep : List Char → Bool)
    (hk : ∀ f, keep f = true ↔ isdir f = false ∧ PrimitiveFileName f) (files : List (List Char)) (hf : ∀ f ∈ files, f ≠ [] ∧ '/' ∉ f) :
    ∃ r, keepFiles isdir dir files = .ok r ∧ EachOf (PathIn dir) (files.filter keep) r := by
  induction files with
  | nil => exact ⟨[], rfl, .nil⟩
  | cons f fs ih =>
    obtain ⟨r, hr, hm⟩ := ih fun g hg => hf g (List.mem_cons_of_mem _ hg)
    obtain ⟨h1, h2⟩ := hf f List.mem_cons_self
    obtain ⟨b, hb, hbi⟩ := check_plain isdir h2 h1
    refine ⟨if b then joinPath dir f :: r else r, by simp only [keepFiles, hb, hr], ?_⟩
    obtain rfl : keep f = b := Bool.eq_iff_iff.mpr ((hk f).trans hbi.symm)
    rw [List.filter_cons]
    cases keep f with
    | false => exact hm
    | true => exact .cons ((joinPath_iff _ _ _).mp rfl) hm

/-! ## Modules -/

/-- What counts in a module. -/
def countedVar (v : ModVar) : Option (String × Nat) :=
  match v.cls with | some c => if v.primitive && !v.base then some (v.name, c) else none | none => none

theorem counted_some {v : ModVar} {p : String × Nat} : countedVar v = some p ↔ HoldsPrimitive v ∧ v.name = p.1 ∧ v.cls = some p.2 := by
  unfold countedVar HoldsPrimitive
  cases hc : v.cls with
  | none => simp
  | some c =>
    by_cases h : (v.primitive && !v.base) = true
    · simp only [h, if_true, Option.some.injEq]
      simp only [Bool.and_eq_true, Bool.not_eq_true'] at h
      obtain ⟨a, b⟩ := p
      simp [h, eq_comm]
    · simp only [h]
      simp only [Bool.and_eq_true, Bool.not_eq_true'] at h
      constructor
      · intro h'; simp at h'
      · rintro ⟨⟨_, h'⟩, _⟩; exact absurd h' h

theorem counted_none {v : ModVar} : countedVar v = none ↔ ¬HoldsPrimitive v := by
  constructor
  · intro h hp
    cases hc : v.cls with
    | none => exact hp.1 hc
    | some c =>
      have := (counted_some (v := v) (p := (v.name, c))).mpr ⟨hp, rfl, hc⟩
      rw [h] at this; cases this
  · intro h
    cases e : countedVar v with
    | none => rfl
    | some p => exact absurd (counted_some.mp e).1 h

theorem loadPrimitive_counted (vars : List ModVar) :
    loadPrimitive (.ok vars) = match vars.filterMap countedVar with
      | [] => .error .runtimeError | [p] => .ok p | _ :: _ :: _ => .error .runtimeError := rfl

theorem filterMap_single {vars : List ModVar} {p : String × Nat} (h : vars.filterMap countedVar = [p]) :
    ∃ pre v post, vars = pre ++ v :: post ∧ countedVar v = some p ∧ ∀ w ∈ pre ++ post, countedVar w = none := by
  induction vars with
  | nil => cases h
  | cons v vars ih =>
    rw [List.filterMap_cons] at h
    cases e : countedVar v with
    | none =>
      rw [e] at h
      obtain ⟨pre, x, post, rfl, h1, h2⟩ := ih h
      refine ⟨v :: pre, x, post, rfl, h1, ?_⟩
      intro w hw
      rcases List.mem_cons.mp hw with rfl | hw
      · exact e
      · exact h2 w hw
    | some q =>
      rw [e] at h
      simp only [List.cons.injEq] at h
      obtain ⟨rfl, h⟩ := h
      exact ⟨[], v, vars, rfl, e, fun w hw => List.filterMap_eq_nil_iff.mp h w hw⟩

theorem filterMap_of_single {vars pre post : List ModVar} {v : ModVar} {p : String × Nat} (h : vars = pre ++ v :: post)
    (hv : countedVar v = some p) (hn : ∀ w ∈ pre ++ post, countedVar w = none) : vars.filterMap countedVar = [p] := by
  subst h
  rw [List.filterMap_append, List.filterMap_cons, hv,
    List.filterMap_eq_nil_iff.mpr fun w hw => hn w (List.mem_append_left _ hw),
    List.filterMap_eq_nil_iff.mpr fun w hw => hn w (List.mem_append_right _ hw)]
  rfl

/-! ## Entry points -/

theorem registersItem_cons {x : EntryItem} {items : List EntryItem} {n : String} {c : LibClass} :
    RegistersItem (x :: items) n c ↔
      (x = .cls n c ∧ (c.aggregation = true ∨ c.transform = true)) ∨ (∃ m d, x = .cls m d) ∧ RegistersItem items n c := by
  constructor
  · rintro ⟨pre, post, he, hp, hk⟩
    cases pre with
    | nil => cases he; exact Or.inl ⟨rfl, hk⟩
    | cons y pre =>
      cases he
      exact Or.inr ⟨hp _ List.mem_cons_self, pre, post, rfl, fun x hx => hp x (List.mem_cons_of_mem _ hx), hk⟩
  · rintro (⟨rfl, hk⟩ | ⟨hx, pre, post, rfl, hp, hk⟩)
    · exact ⟨[], items, rfl, by simp, hk⟩
    · refine ⟨x :: pre, post, rfl, ?_, hk⟩
      intro y hy
      rcases List.mem_cons.mp hy with rfl | hy
      · exact hx
      · exact hp y hy

theorem registerItems_lookup (items : List EntryItem) (attrs : List (String × LibClass)) (n : String) :
    (∀ c, (registerItems attrs items).lookup n = some c → RegistersItem items n c ∨ attrs.lookup n = some c) ∧
    ((∀ c, ¬RegistersItem items n c) → (registerItems attrs items).lookup n = attrs.lookup n) ∧
    ((∃ c, RegistersItem items n c) → ∃ c, RegistersItem items n c ∧ (registerItems attrs items).lookup n = some c) := by
  induction items generalizing attrs with
  | nil =>
    refine ⟨fun c h => Or.inr h, fun _ => rfl, ?_⟩
    rintro ⟨c, pre, post, he, _⟩
    simp at he
  | cons x items ih =>
    cases x with
    | other =>
      have hno : ∀ c, ¬RegistersItem (.other :: items) n c := by
        intro c hc
        rcases registersItem_cons.mp hc with ⟨h, _⟩ | ⟨⟨m, d, h⟩, _⟩ <;> cases h
      exact ⟨fun c h => Or.inr h, fun _ => rfl, fun ⟨c, hc⟩ => absurd hc (hno c)⟩
    | cls m d =>
      simp only [registerItems]
      by_cases hk : (d.aggregation || d.transform) = true
      · rw [if_pos hk]
        obtain ⟨h1, h2, h3⟩ := ih (putKey m d attrs)
        rw [lookup_putKey] at h1 h2
        rw [Bool.or_eq_true] at hk
        refine ⟨?_, ?_, ?_⟩
        · intro c hc
          rcases h1 c hc with h | h
          · exact Or.inl (registersItem_cons.mpr (Or.inr ⟨⟨m, d, rfl⟩, h⟩))
          · by_cases hn : n = m
            · rw [if_pos hn] at h
              cases h
              subst hn
              exact Or.inl (registersItem_cons.mpr (Or.inl ⟨rfl, hk⟩))
            · rw [if_neg hn] at h; exact Or.inr h
        · intro hno
          rw [h2 fun c hc => hno c (registersItem_cons.mpr (Or.inr ⟨⟨m, d, rfl⟩, hc⟩)), if_neg]
          rintro rfl
          exact hno d (registersItem_cons.mpr (Or.inl ⟨rfl, hk⟩))
        · rintro ⟨c, hc⟩
          by_cases hex : ∃ c, RegistersItem items n c
          · obtain ⟨c', hc', hl⟩ := h3 hex
            exact ⟨c', registersItem_cons.mpr (Or.inr ⟨⟨m, d, rfl⟩, hc'⟩), hl⟩
          · rcases registersItem_cons.mp hc with ⟨he, _⟩ | ⟨_, h⟩
            · cases he
              refine ⟨d, hc, ?_⟩
              rw [h2 fun c hc => hex ⟨c, hc⟩, if_pos rfl]
            · exact absurd ⟨c, h⟩ hex
      · rw [if_neg hk]
        obtain ⟨h1, h2, h3⟩ := ih attrs
        have hiff : ∀ c, RegistersItem (.cls m d :: items) n c ↔ RegistersItem items n c := by
          intro c
          rw [registersItem_cons]
          constructor
          · rintro (⟨he, h⟩ | ⟨_, h⟩)
            · cases he; rw [← Bool.or_eq_true] at h; exact absurd h hk
            · exact h
          · intro h; exact Or.inr ⟨⟨m, d, rfl⟩, h⟩
        simp only [hiff]
        exact ⟨h1, h2, h3⟩

theorem registerAll_lookup (eps : List (Option (List EntryItem))) (attrs : List (String × LibClass)) (n : String) :
    (∀ c, (registerAll attrs eps).lookup n = some c → RegisteredAs eps n c ∨ attrs.lookup n = some c) ∧
    ((∀ c, ¬RegisteredAs eps n c) → (registerAll attrs eps).lookup n = attrs.lookup n) ∧
    ((∃ c, RegisteredAs eps n c) → ∃ c, RegisteredAs eps n c ∧ (registerAll attrs eps).lookup n = some c) := by
  induction eps generalizing attrs with
  | nil =>
    refine ⟨fun c h => Or.inr h, fun _ => rfl, ?_⟩
    rintro ⟨c, items, hm, _⟩
    cases hm
  | cons x eps ih =>
    cases x with
    | none =>
      have hiff : ∀ c, RegisteredAs (none :: eps) n c ↔ RegisteredAs eps n c := by
        intro c
        constructor
        · rintro ⟨items, hm, h⟩
          rcases List.mem_cons.mp hm with hm | hm
          · cases hm
          · exact ⟨items, hm, h⟩
        · rintro ⟨items, hm, h⟩; exact ⟨items, List.mem_cons_of_mem _ hm, h⟩
      simp only [hiff, registerAll]
      exact ih attrs
    | some items =>
      have hiff : ∀ c, RegisteredAs (some items :: eps) n c ↔ RegistersItem items n c ∨ RegisteredAs eps n c := by
        intro c
        constructor
        · rintro ⟨its, hm, h⟩
          rcases List.mem_cons.mp hm with hm | hm
          · cases hm; exact Or.inl h
          · exact Or.inr ⟨its, hm, h⟩
        · rintro (h | ⟨its, hm, h⟩)
          · exact ⟨items, List.mem_cons_self, h⟩
          · exact ⟨its, List.mem_cons_of_mem _ hm, h⟩
      simp only [hiff, registerAll]
      obtain ⟨h1, h2, h3⟩ := ih (registerItems attrs items)
      obtain ⟨g1, g2, g3⟩ := registerItems_lookup items attrs n
      refine ⟨?_, ?_, ?_⟩
      · intro c hc
        rcases h1 c hc with h | h
        · exact Or.inl (Or.inr h)
        · rcases g1 c h with h | h
          · exact Or.inl (Or.inl h)
          · exact Or.inr h
      · intro hno
        rw [h2 fun c hc => hno c (Or.inr hc), g2 fun c hc => hno c (Or.inl hc)]
      · rintro ⟨c, hc⟩
        by_cases hex : ∃ c, RegisteredAs eps n c
        · obtain ⟨c', hc', hl⟩ := h3 hex
          exact ⟨c', Or.inr hc', hl⟩
        · rcases hc with hc | hc
          · obtain ⟨c', hc', hl⟩ := g3 ⟨c, hc⟩
            exact ⟨c', Or.inl hc', by rw [h2 fun c hc => hex ⟨c, hc⟩, hl]⟩
          · exact absurd ⟨c, hc⟩ hex

end FT
