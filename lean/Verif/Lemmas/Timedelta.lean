import Verif.Model.Timedelta
import Std.Data.String.ToInt
namespace FT
namespace Timedelta

/-! ### dictionaries -/

theorem Dict.mem_keys_set {α} (d : Dict α) (k x : String) (v : α) :
    x ∈ (Dict.set d k v).map Prod.fst ↔ x = k ∨ x ∈ d.map Prod.fst := by
  induction d with
  | nil => simp [Dict.set]
  | cons e d ih =>
    obtain ⟨k', v'⟩ := e
    simp only [Dict.set]
    by_cases h : k' = k
    · subst h; simp
    · simp only [h, if_false, List.map_cons, List.mem_cons, ih]
      constructor
      · rintro (h | h | h) <;> simp [h]
      · rintro (h | h | h) <;> simp [h]

theorem Dict.nodup_set {α} (d : Dict α) (k : String) (v : α) (h : (d.map Prod.fst).Nodup) :
    ((Dict.set d k v).map Prod.fst).Nodup := by
  induction d with
  | nil => simp [Dict.set]
  | cons e d ih =>
    obtain ⟨k', v'⟩ := e
    simp only [List.map_cons, List.nodup_cons] at h
    simp only [Dict.set]
    by_cases h0 : k' = k
    · subst h0; simpa using h
    · simp only [h0, if_false, List.map_cons, List.nodup_cons]
      exact ⟨by rw [Dict.mem_keys_set, not_or]; exact ⟨h0, h.1⟩, ih h.2⟩

theorem Dict.set_new {α} (d : Dict α) (k : String) (v : α) (h : k ∉ d.map Prod.fst) :
    Dict.set d k v = d ++ [(k, v)] := by
  induction d with
  | nil => rfl
  | cons e d ih =>
    obtain ⟨k', v'⟩ := e
    simp only [List.map_cons, List.mem_cons, not_or] at h
    have : ¬ k' = k := fun e => h.1 e.symm
    simp [Dict.set, this, ih h.2]

theorem Dict.foldl_set {α} (f : String → String) (l : Dict α) : ∀ acc : Dict α,
    (∀ kv ∈ l, f kv.1 = kv.1) → ((acc ++ l).map Prod.fst).Nodup →
    l.foldl (fun acc uv => Dict.set acc (f uv.1) uv.2) acc = acc ++ l := by
  induction l with
  | nil => intro acc _ _; simp
  | cons e l ih =>
    intro acc hf hn
    have he : f e.1 = e.1 := hf e (by simp)
    have hk : e.1 ∉ acc.map Prod.fst := by
      rw [List.map_append, List.nodup_append] at hn
      intro hm
      exact hn.2.2 _ hm _ (by simp) rfl
    rw [List.foldl_cons, he, Dict.set_new _ _ _ hk, ih]
    · simp
    · intro kv hkv; exact hf kv (by simp [hkv])
    · simpa using hn

theorem nodup_fixUnits_aux (l : Dict Int) : ∀ acc : Dict Int, (acc.map Prod.fst).Nodup →
    ((l.foldl (fun acc uv => Dict.set acc (fixUnit uv.1) uv.2) acc).map Prod.fst).Nodup := by
  induction l with
  | nil => intro acc h; exact h
  | cons e l ih => intro acc h; exact ih _ (Dict.nodup_set _ _ _ h)

theorem nodup_fixUnits (l : Dict Int) : ((fixUnits l).map Prod.fst).Nodup :=
  nodup_fixUnits_aux l [] (by simp)

theorem mem_fixUnits_aux (l : Dict Int) (x : String) : ∀ acc : Dict Int,
    (∀ y ∈ acc.map Prod.fst, fixUnit y = y) → (∀ u, fixUnit (fixUnit u) = fixUnit u) →
    x ∈ (l.foldl (fun acc uv => Dict.set acc (fixUnit uv.1) uv.2) acc).map Prod.fst → fixUnit x = x := by
  induction l with
  | nil => intro acc h _ hx; exact h x hx
  | cons e l ih =>
    intro acc h hi hx
    refine ih _ ?_ hi hx
    intro y hy
    rw [Dict.mem_keys_set] at hy
    rcases hy with rfl | hy
    · exact hi _
    · exact h y hy

/-! ### unit normalisation is idempotent -/

theorem toLower_toLower (c : Char) : c.toLower.toLower = c.toLower := by
  unfold Char.toLower
  split
  · rename_i h
    rw [dif_neg]
    simp only [UInt32.le_iff_toNat_le] at h ⊢
    have h1 := h.1; have h2 := h.2
    simp only [UInt32.toNat_add, Char.toNat_val] at *
    have : UInt32.toNat 32 = 32 := rfl
    have : 'Z'.val.toNat = 90 := rfl
    have : 'A'.val.toNat = 65 := rfl
    intro h3
    simp_all
    omega
  · rfl

theorem lower_lower (s : String) : lower (lower s) = lower s := by
  simp [lower, Function.comp_def, toLower_toLower]

theorem length_lower (s : String) : (lower s).toList.length = s.toList.length := by simp [lower]

theorem endsWithS_lower (s : String) (h : endsWithS s = true) : endsWithS (lower s) = true := by
  simp only [endsWithS, beq_iff_eq] at h ⊢
  simp only [lower, String.toList_ofList, List.getLast?_map, h, Option.map_some]
  decide

theorem fixUnit_canonical : ∀ kv ∈ readableToUnit, fixUnit kv.2 = kv.2 := by decide

theorem lookup_mem {α : Type} (d : Dict α) (k : String) (v : α) (h : d.get? k = some v) : (k, v) ∈ d := by
  induction d with
  | nil => simp [Dict.get?] at h
  | cons e d ih =>
    obtain ⟨k', v'⟩ := e
    simp only [Dict.get?, List.lookup_cons] at h
    split at h
    · rename_i hk
      have : k = k' := by simpa using hk
      simp at h; simp [this, h]
    · exact List.mem_cons_of_mem _ (ih h)

theorem readable_long : ∀ kv ∈ readableToUnit, kv.1.toList.length > 2 := by decide

theorem fixUnit_def (u : String) :
    fixUnit u = (readableToUnit.get? (checkUnitPlural u)).getD (checkUnitPlural u) := rfl

attribute [local irreducible] readableToUnit in
theorem fixUnit_idem (u : String) : fixUnit (fixUnit u) = fixUnit u := by
  have aux : ∀ w, checkUnitPlural w = w → fixUnit (((readableToUnit.get? w).getD w)) = (readableToUnit.get? w).getD w := by
    intro w hw
    cases hg : readableToUnit.get? w with
    | none => rw [Option.getD_none, fixUnit_def, hw, hg, Option.getD_none]
    | some c => rw [Option.getD_some]; exact fixUnit_canonical (w, c) (lookup_mem _ _ _ hg)
  have hck : checkUnitPlural (checkUnitPlural u) = checkUnitPlural u := by
    by_cases h2 : u.toList.length > 2
    · by_cases hs : endsWithS u = true
      · have e : checkUnitPlural u = lower u := by
          rw [checkUnitPlural, if_neg (by simp [hs]), if_pos (by omega)]
        rw [e, checkUnitPlural, length_lower, endsWithS_lower u hs]
        simp [lower_lower]
      · have e : checkUnitPlural u = lower (u ++ "s") := by
          rw [checkUnitPlural, if_pos]
          rw [Bool.and_eq_true, decide_eq_true_eq]; exact ⟨h2, by simp [hs]⟩
        have hl : (u ++ "s").toList.length > 2 := by simp only [String.toList_append, List.length_append]; omega
        have he : endsWithS (u ++ "s") = true := by
          simp [endsWithS, String.toList_append]
        rw [e, checkUnitPlural, length_lower, endsWithS_lower _ he]
        simp [lower_lower]
    · by_cases h1 : u.toList.length > 1
      · have e : checkUnitPlural u = lower u := by
          simp only [checkUnitPlural]; rw [if_neg (by simp [h2]), if_pos h1]
        rw [e, checkUnitPlural, length_lower, if_neg (by simp [h2]), if_pos h1, lower_lower]
      · have e : checkUnitPlural u = u := by
          simp only [checkUnitPlural]; rw [if_neg (by simp [h2]), if_neg h1]
        rw [e, e]
  rw [fixUnit_def u]; exact aux _ hck

theorem fixUnit_of_mem_fixUnits (l : Dict Int) (x : String) (h : x ∈ (fixUnits l).map Prod.fst) : fixUnit x = x :=
  mem_fixUnits_aux l x [] (by simp) fixUnit_idem h

theorem fixUnits_fixed (l : Dict Int) (hn : (l.map Prod.fst).Nodup) (hf : ∀ x ∈ l.map Prod.fst, fixUnit x = x) :
    fixUnits l = l := by
  have := Dict.foldl_set (α := Int) fixUnit l [] (by
    intro kv hkv; exact hf _ (List.mem_map_of_mem (f := Prod.fst) hkv)) (by simpa using hn)
  simpa [fixUnits] using this

theorem fixUnits_idem (l : Dict Int) : fixUnits (fixUnits l) = fixUnits l :=
  fixUnits_fixed _ (nodup_fixUnits l) (fixUnit_of_mem_fixUnits l)

theorem getUnits_neg (l : Dict Int) : getUnits (l.map fun uv => (uv.1, -uv.2)) = getUnits l := by
  simp [getUnits, Function.comp_def]

theorem keys_neg (l : Dict Int) : (l.map fun uv => (uv.1, -uv.2)).map Prod.fst = l.map Prod.fst := by
  simp [Function.comp_def]

theorem neg_neg_times (l : Dict Int) :
    (l.map fun uv => (uv.1, -uv.2)).map (fun uv => (uv.1, -uv.2)) = l := by
  simp [Function.comp_def]

theorem lowerReadable_neg (l : Dict Int) :
    lowerReadableTimes (l.map fun uv => (uv.1, -uv.2)) =
      (lowerReadableTimes l).map fun d => d.map fun uv => (uv.1, -uv.2) := by
  induction l with
  | nil => rfl
  | cons e l ih =>
    obtain ⟨u, v⟩ := e
    simp only [List.map_cons, lowerReadableTimes]
    cases readableUnits.get? u with
    | none => rfl
    | some r =>
      simp only [ih]
      cases lowerReadableTimes l <;> rfl

theorem getUnitType_neg (l : Dict Int) :
    getUnitType (l.map fun uv => (uv.1, -uv.2)) = (getUnitType l).map fun o => o.map DeltaObj.neg := by
  unfold getUnitType
  have h1 : isAbsolute (l.map fun uv => (uv.1, -uv.2)) = isAbsolute l := by simp only [isAbsolute, getUnits_neg]
  have h2 : hasMultipleUnits (l.map fun uv => (uv.1, -uv.2)) = hasMultipleUnits l := by
    simp only [hasMultipleUnits, getUnits_neg]
  rw [getUnits_neg, h1, h2]
  split
  · rfl
  · split
    · cases l with
      | nil => rfl
      | cons e l => rfl
    · rw [lowerReadable_neg]
      cases lowerReadableTimes l with
      | error e => rfl
      | ok r =>
        simp only [Except.map, bind, Except.bind]
        have : (List.map (fun uv : String × Int => (uv.1, -uv.2)) r).map Prod.fst = r.map Prod.fst := keys_neg r
        rw [this]
        split <;> rfl

theorem deltaNeg_neg (d : DeltaObj) : DeltaObj.neg (DeltaObj.neg d) = d := by
  cases d <;> simp [DeltaObj.neg, Function.comp_def]

/-! ### names -/

theorem space_not_mem_repr (v : Int) : ' ' ∉ (Int.repr v).toList := by
  have hd : ∀ n : Nat, ' ' ∉ (Nat.repr n).toList := by
    intro n h
    rw [Nat.toList_repr] at h
    have := Nat.isDigit_of_mem_toDigits (by omega) (by omega) h
    revert this; decide
  cases v with
  | ofNat n => exact hd n
  | negSucc n =>
    simp only [Int.repr, String.toList_append]
    intro h
    rcases List.mem_append.mp h with h | h
    · revert h; decide
    · exact hd _ h

theorem readable_inj : ∀ a ∈ readableUnits, ∀ b ∈ readableUnits, a.2 = b.2 → a.1 = b.1 := by decide
theorem readable_no_space : ∀ a ∈ readableUnits, ' ' ∉ a.2.toList := by decide

theorem split_at_sep {a b a' b' : List Char} {c : Char} (ha : c ∉ a) (ha' : c ∉ a')
    (h : a ++ c :: b = a' ++ c :: b') : a = a' ∧ b = b' := by
  induction a generalizing a' with
  | nil =>
    cases a' with
    | nil => simpa using h
    | cons x a' => simp only [List.nil_append, List.cons_append, List.cons.injEq] at h; simp [h.1] at ha'
  | cons x a ih =>
    cases a' with
    | nil => simp only [List.nil_append, List.cons_append, List.cons.injEq] at h; simp [h.1] at ha
    | cons y a' =>
      simp only [List.cons_append, List.cons.injEq] at h
      simp only [List.mem_cons, not_or] at ha ha'
      obtain ⟨h1, h2⟩ := ih ha.2 ha'.2 h.2
      simp [h.1, h1, h2]

theorem unitName_ok {u : String} {v : Int} {s : String} (h : unitName u v = .ok s) :
    ∃ r, (u, r) ∈ readableUnits ∧ s.toList = (Int.repr v).toList ++ ' ' :: r.toList := by
  unfold unitName at h
  cases hg : readableUnits.get? u with
  | none => rw [hg] at h; cases h
  | some r =>
    rw [hg] at h
    injection h with h
    refine ⟨r, lookup_mem _ _ _ hg, ?_⟩
    rw [← h]; simp [String.toList_append]

theorem unitName_inj {u u' : String} {v v' : Int} {s : String} (h : unitName u v = .ok s)
    (h' : unitName u' v' = .ok s) : u = u' ∧ v = v' := by
  obtain ⟨r, hr, e⟩ := unitName_ok h
  obtain ⟨r', hr', e'⟩ := unitName_ok h'
  obtain ⟨e1, e2⟩ := split_at_sep (space_not_mem_repr v) (space_not_mem_repr v') (e.symm.trans e')
  refine ⟨readable_inj _ hr _ hr' (String.toList_inj.mp e2), ?_⟩
  exact Int.repr_injective (String.toList_inj.mp e1)

/-- The plain names of a list of units. -/
def Named : List (String × Int) → List String → Prop
  | [], [] => True
  | e :: l, n :: ns => unitName e.1 e.2 = .ok n ∧ Named l ns
  | _, _ => False

theorem intercalate_unitNames_inj : ∀ (l l' : List (String × Int)) (ns ns' : List String),
    l ≠ [] → l' ≠ [] →
    Named l ns →
    Named l' ns' →
    String.intercalate " " ns = String.intercalate " " ns' → l = l'
  := by
  intro l
  induction l with
  | nil => intro l' ns ns' h; exact absurd rfl h
  | cons e l ih =>
    intro l' ns ns' _ hne h1 h2 heq
    cases ns with
    | nil => exact h1.elim
    | cons n ns0 =>
    obtain ⟨hn, hns⟩ := h1
    cases l' with
    | nil => exact absurd rfl hne
    | cons e' l' =>
    cases ns' with
    | nil => exact h2.elim
    | cons n' ns0' =>
    obtain ⟨hn', hns'⟩ := h2
    obtain ⟨r, hr, en⟩ := unitName_ok hn
    obtain ⟨r', hr', en'⟩ := unitName_ok hn'
    have hexp : ∀ (m : String) (ms : List String), (String.intercalate " " (m :: ms)).toList =
        m.toList ++ (if ms = [] then [] else ' ' :: (String.intercalate " " ms).toList) := by
      intro m ms
      cases ms with
      | nil => simp
      | cons m2 ms => simp [String.intercalate_cons_cons, String.toList_append]
    have h3 := congrArg String.toList heq
    rw [hexp, hexp, en, en'] at h3
    simp only [List.append_assoc, List.cons_append] at h3
    obtain ⟨e1, e2⟩ := split_at_sep (space_not_mem_repr _) (space_not_mem_repr _) h3
    have hv : e.2 = e'.2 := Int.repr_injective (String.toList_inj.mp e1)
    have hs := readable_no_space _ hr
    have hs' := readable_no_space _ hr'
    simp only at hs hs'
    by_cases hz : ns0 = []
    · by_cases hz' : ns0' = []
      · subst hz; subst hz'
        simp only [if_true, List.append_nil] at e2
        have hu : e.1 = e'.1 := readable_inj _ hr _ hr' (String.toList_inj.mp e2)
        have hl : l = [] := by cases l with | nil => rfl | cons _ _ => exact hns.elim
        have hl' : l' = [] := by cases l' with | nil => rfl | cons _ _ => exact hns'.elim
        obtain ⟨a, b⟩ := e; obtain ⟨a', b'⟩ := e'
        simp at hu hv; simp [hu, hv, hl, hl']
      · exfalso
        simp only [hz, hz', if_true, if_false, List.append_nil] at e2
        rw [e2] at hs; simp at hs
    · by_cases hz' : ns0' = []
      · exfalso
        simp only [hz, hz', if_true, if_false, List.append_nil] at e2
        rw [← e2] at hs'; simp at hs'
      · simp only [hz, hz', if_false] at e2
        obtain ⟨e3, e4⟩ := split_at_sep hs hs' e2
        have hu : e.1 = e'.1 := readable_inj _ hr _ hr' (String.toList_inj.mp e3)
        have hl : l ≠ [] := by rintro rfl; cases ns0 with | nil => exact hz rfl | cons _ _ => exact hns.elim
        have hl' : l' ≠ [] := by rintro rfl; cases ns0' with | nil => exact hz' rfl | cons _ _ => exact hns'.elim
        have := ih l' ns0 ns0' hl hl' hns hns' (String.toList_inj.mp e4)
        obtain ⟨a, b⟩ := e; obtain ⟨a', b'⟩ := e'
        simp at hu hv; simp [hu, hv, this]

end Timedelta
end FT
