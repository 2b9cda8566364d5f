import Verif.Spec.MakePrim
/-! # Primitives made from functions: lemmas -/
namespace FT
open Spec

theorem lookup_app {α : Type} (d e : List (String × α)) (k : String) : (d ++ e).lookup k = (d.lookup k).or (e.lookup k) := by
  induction d with
  | nil => simp
  | cons x d ih =>
    obtain ⟨a, b⟩ := x
    rw [List.cons_append, List.lookup_cons, List.lookup_cons]
    by_cases h : (k == a) = true
    · simp [h]
    · rw [Bool.not_eq_true] at h
      simp [h, ih]

theorem lookup_none_iff {α : Type} (d : List (String × α)) (k : String) : d.lookup k = none ↔ ∀ v, (k, v) ∉ d := by
  induction d with
  | nil => simp
  | cons x d ih =>
    obtain ⟨a, b⟩ := x
    rw [List.lookup_cons]
    by_cases h : k = a
    · subst h
      simp
      exact ⟨b, fun h => absurd rfl h⟩
    · rw [beq_eq_false_iff_ne.mpr h]
      simp [ih, h]

theorem lookup_some_mem {α : Type} (d : List (String × α)) (k : String) (v : α) (h : d.lookup k = some v) : (k, v) ∈ d := by
  induction d with
  | nil => simp at h
  | cons x d ih =>
    obtain ⟨a, b⟩ := x
    rw [List.lookup_cons] at h
    by_cases hk : k = a
    · subst hk
      simp at h
      subst h
      exact List.mem_cons_self
    · rw [beq_eq_false_iff_ne.mpr hk] at h
      exact List.mem_cons_of_mem _ (ih h)

theorem lookup_kwUpdate {α : Type} (d e : List (String × α)) (k : String) : (kwUpdate d e).lookup k = (e.lookup k).or (d.lookup k) := by
  unfold kwUpdate
  rw [lookup_app]
  cases he : e.lookup k with
  | none =>
    rw [Option.or_none, Option.none_or]
    induction d with
    | nil => rfl
    | cons x d ih =>
      obtain ⟨a, b⟩ := x
      by_cases hk : k = a
      · subst hk
        rw [List.filter_cons_of_pos (by simp [he])]
        simp
      · rw [List.filter_cons]
        split
        · rw [List.lookup_cons, List.lookup_cons, beq_eq_false_iff_ne.mpr hk]
          exact ih
        · rw [ih, List.lookup_cons, beq_eq_false_iff_ne.mpr hk]
  | some v =>
    have : (d.filter fun x => (e.lookup x.1).isNone).lookup k = none := by
      rw [lookup_none_iff]
      intro w hw
      have := (List.mem_filter.mp hw).2
      simp [he] at this
    rw [this]
    simp

theorem mem_key_kwUpdate {α : Type} (d e : List (String × α)) (k : String) :
    (∃ v, (k, v) ∈ kwUpdate d e) ↔ (∃ v, (k, v) ∈ d) ∨ ∃ v, (k, v) ∈ e := by
  have h1 := lookup_none_iff (kwUpdate d e) k
  have h2 := lookup_none_iff d k
  have h3 := lookup_none_iff e k
  rw [lookup_kwUpdate] at h1
  constructor
  · rintro ⟨v, hv⟩
    apply Classical.byContradiction
    intro hn
    rw [not_or] at hn
    have hd := h2.mpr fun v hv => hn.1 ⟨v, hv⟩
    have he := h3.mpr fun v hv => hn.2 ⟨v, hv⟩
    rw [hd, he] at h1
    exact h1.mp rfl v hv
  · intro h
    apply Classical.byContradiction
    intro hn
    have := h1.mpr fun v hv => hn ⟨v, hv⟩
    rw [Option.or_eq_none_iff] at this
    rcases h with ⟨v, hv⟩ | ⟨v, hv⟩
    · exact h2.mp this.2 v hv
    · exact h3.mp this.1 v hv

theorem lookup_plain (kw : List (String × Val)) (k : String) : (plainKw kw).lookup k = (kw.lookup k).map .scalar := by
  unfold plainKw
  induction kw with
  | nil => rfl
  | cons x kw ih =>
    obtain ⟨a, b⟩ := x
    rw [List.map_cons, List.lookup_cons, List.lookup_cons]
    by_cases h : k = a
    · subst h; simp
    · rw [beq_eq_false_iff_ne.mpr h]
      exact ih

theorem mem_plain (kw : List (String × Val)) (k : String) : (∃ v, (k, v) ∈ plainKw kw) ↔ ∃ v, (k, v) ∈ kw := by
  unfold plainKw
  constructor
  · rintro ⟨v, hv⟩
    obtain ⟨x, hx, e⟩ := List.mem_map.mp hv
    cases e
    exact ⟨x.2, hx⟩
  · rintro ⟨v, hv⟩
    exact ⟨.scalar v, List.mem_map.mpr ⟨(k, v), hv, rfl⟩⟩

/-! ### Binding -/

theorem bindRest_ok {kw : List (String × PyArg)} : ∀ {params : List (String × Option Val)} {vs : List PyArg}, bindRest kw params = .ok vs ↔
    vs.length = params.length ∧ ∀ (i : Nat) n d v, params[i]? = some (n, d) → vs[i]? = some v →
      kw.lookup n = some v ∨ (kw.lookup n = none ∧ d.map PyArg.scalar = some v)
  | [], vs => by
    simp only [bindRest, Except.ok.injEq, List.length_nil, List.length_eq_zero_iff]
    constructor
    · rintro rfl
      simp
    · rintro ⟨rfl, _⟩
      rfl
  | (n, d) :: ps, vs => by
    have key : ∀ v, ((kw.lookup n).or (d.map .scalar) = some v ↔ kw.lookup n = some v ∨ (kw.lookup n = none ∧ d.map PyArg.scalar = some v)) := by
      intro v
      cases kw.lookup n <;> simp
    rw [bindRest]
    cases ho : (kw.lookup n).or (d.map .scalar) with
    | none =>
      simp only [reduceCtorEq, false_iff]
      rintro ⟨hl, h⟩
      cases vs with
      | nil => simp at hl
      | cons v vs =>
        have := (key v).mpr (h 0 n d v rfl rfl)
        rw [ho] at this
        cases this
    | some v =>
      simp only
      cases hr : bindRest kw ps with
      | error e =>
        simp only [reduceCtorEq, false_iff]
        rintro ⟨hl, h⟩
        cases vs with
        | nil => simp at hl
        | cons w vs =>
          have := bindRest_ok.mpr (⟨by simpa using hl, fun i => h (i + 1)⟩ : vs.length = ps.length ∧ _)
          rw [hr] at this
          cases this
      | ok ws =>
        have hw := bindRest_ok.mp hr
        simp only [Except.ok.injEq]
        constructor
        · rintro rfl
          refine ⟨by simp [hw.1], ?_⟩
          intro i n' d' v' hp hv
          match i with
          | 0 =>
            simp at hp hv
            obtain ⟨rfl, rfl⟩ := hp
            subst hv
            exact (key _).mp ho
          | i + 1 => exact hw.2 i n' d' v' (by simpa using hp) (by simpa using hv)
        · rintro ⟨hl, h⟩
          cases vs with
          | nil => simp at hl
          | cons w vs =>
            have h0 := (key w).mpr (h 0 n d w rfl rfl)
            rw [ho] at h0
            have := bindRest_ok.mpr (⟨by simpa using hl, fun i => h (i + 1)⟩ : vs.length = ps.length ∧ _)
            rw [hr] at this
            cases this
            cases h0
            rfl

theorem bindRest_error {kw : List (String × PyArg)} : ∀ {params : List (String × Option Val)} {e : PyErr}, bindRest kw params = .error e → e = .typeError
  | [], _, h => by cases h
  | (n, d) :: ps, e, h => by
    rw [bindRest] at h
    split at h
    · cases h; rfl
    · split at h
      · next he => cases h; exact bindRest_error he
      · cases h

theorem receives_unique {params : List (String × Option Val)} {pos : List PyArg} {kw : List (String × PyArg)} {as bs : List PyArg}
    (h : Receives params pos kw as) (h' : Receives params pos kw bs) : as = bs := by
  obtain ⟨l1, _, _, r1⟩ := h
  obtain ⟨l2, _, _, r2⟩ := h'
  apply List.ext_getElem?
  intro i
  by_cases hi : i < params.length
  · have e1 : as[i]? = some as[i] := List.getElem?_eq_getElem (by omega)
    have e2 : bs[i]? = some bs[i] := List.getElem?_eq_getElem (by omega)
    have e3 : params[i]? = some params[i] := List.getElem?_eq_getElem (by omega)
    have a := r1 i _ _ _ e3 e1
    have b := r2 i _ _ _ e3 e2
    rw [e1, e2]
    by_cases hp : i < pos.length
    · rw [if_pos hp] at a b
      exact a.symm.trans b
    · rw [if_neg hp] at a b
      rcases a with a | ⟨a0, a⟩ <;> rcases b with b | ⟨b0, b⟩
      · exact a.symm.trans b
      · rw [b0] at a; cases a
      · rw [a0] at b; cases b
      · exact a.symm.trans b
  · rw [List.getElem?_eq_none (by omega), List.getElem?_eq_none (by omega)]

theorem eq_of_nodup_names {params : List (String × Option Val)} (hn : (params.map Prod.fst).Nodup) {i j : Nat} {n : String} {d d' : Option Val}
    (hi : params[i]? = some (n, d)) (hj : params[j]? = some (n, d')) : i = j ∧ d = d' := by
  obtain ⟨h1, e1⟩ := List.getElem?_eq_some_iff.mp hi
  obtain ⟨h2, e2⟩ := List.getElem?_eq_some_iff.mp hj
  have hij : i = j := by
    have := (List.getElem_inj (xs := params.map Prod.fst) (h₀ := by simpa using h1) (h₁ := by simpa using h2) hn).mp (by simp [e1, e2])
    exact this
  subst hij
  rw [hi] at hj
  cases hj
  exact ⟨rfl, rfl⟩

/-- A call succeeds in binding exactly if there is something to receive. -/
theorem call_spec (f : PyFun) (hn : (f.params.map Prod.fst).Nodup) (pos : List PyArg) (kw : List (String × PyArg)) :
    (∀ args, Receives f.params pos kw args → f.call pos kw = f.body args) ∧
    ((¬ ∃ args, Receives f.params pos kw args) → f.call pos kw = .error .typeError) := by
  have key : ∀ k, (((f.params.take pos.length).map Prod.fst).contains k || !(f.params.map Prod.fst).contains k) = false ↔
      ∃ (i : Nat) (d : Option Val), pos.length ≤ i ∧ f.params[i]? = some (k, d) := by
    intro k
    constructor
    · intro h
      simp only [Bool.or_eq_false_iff, Bool.not_eq_false', List.contains_iff_mem] at h
      obtain ⟨h1, h2⟩ := h
      obtain ⟨p, hp, rfl⟩ := List.mem_map.mp h2
      obtain ⟨i, hi, e⟩ := List.getElem_of_mem hp
      refine ⟨i, p.2, ?_, by rw [List.getElem?_eq_getElem hi, e]⟩
      apply Classical.byContradiction
      intro hlt
      have : p ∈ f.params.take pos.length := List.mem_take_iff_getElem.mpr ⟨i, by omega, e⟩
      have : ((f.params.take pos.length).map Prod.fst).contains p.1 = true := by
        rw [List.contains_iff_mem]
        exact List.mem_map.mpr ⟨p, this, rfl⟩
      rw [this] at h1
      cases h1
    · rintro ⟨i, d, hle, hi⟩
      simp only [Bool.or_eq_false_iff, Bool.not_eq_false', List.contains_iff_mem]
      refine ⟨?_, List.mem_map.mpr ⟨(k, d), List.mem_of_getElem? hi, rfl⟩⟩
      rw [← Bool.not_eq_true, List.contains_iff_mem]
      intro hm
      obtain ⟨p, hp, hk⟩ := List.mem_map.mp hm
      obtain ⟨j, hj, e⟩ := List.mem_take_iff_getElem.mp hp
      have hj' : f.params[j]? = some (k, p.2) := by
        rw [List.getElem?_eq_getElem (by omega), e, ← hk]
      have := (eq_of_nodup_names hn hi hj').1
      omega
  have hkw : (kw.any fun k => ((f.params.take pos.length).map Prod.fst).contains k.1 || !(f.params.map Prod.fst).contains k.1) = false ↔
      ∀ k v, (k, v) ∈ kw → ∃ (i : Nat) (d : Option Val), pos.length ≤ i ∧ f.params[i]? = some (k, d) := by
    rw [List.any_eq_false]
    constructor
    · intro h k v hm
      exact (key k).mp (by simpa using h (k, v) hm)
    · intro h x hx
      simpa using (key x.1).mpr (h x.1 x.2 hx)
  have hrest : ∀ rest, f.params.length ≥ pos.length → (bindRest kw (f.params.drop pos.length) = .ok rest ↔
      (pos ++ rest).length = f.params.length ∧ ∀ (i : Nat) n d v, f.params[i]? = some (n, d) → (pos ++ rest)[i]? = some v →
    if i < pos.length then pos[i]? = some v
    else kw.lookup n = some v ∨ (kw.lookup n = none ∧ d.map PyArg.scalar = some v)) := by
    intro rest hle
    rw [bindRest_ok]
    constructor
    · rintro ⟨hl, h⟩
      refine ⟨by simp at hl ⊢; omega, ?_⟩
      intro i n d v hp hv
      by_cases hi : i < pos.length
      · rw [if_pos hi]
        rwa [List.getElem?_append_left hi] at hv
      · rw [if_neg hi]
        rw [List.getElem?_append_right (by omega)] at hv
        exact h (i - pos.length) n d v (by rw [List.getElem?_drop, ← hp]; congr 1; omega) hv
    · rintro ⟨hl, h⟩
      refine ⟨by simp at hl ⊢; omega, ?_⟩
      intro i n d v hp hv
      have := h (pos.length + i) n d v (by rwa [List.getElem?_drop] at hp) (by
        rw [List.getElem?_append_right (by omega)]
        rw [← hv]; congr 1; omega)
      rwa [if_neg (by omega)] at this
  have main : ∀ args, Receives f.params pos kw args ↔
      ¬ f.params.length < pos.length ∧ (kw.any fun k => ((f.params.take pos.length).map Prod.fst).contains k.1 || !(f.params.map Prod.fst).contains k.1) = false ∧
        ∃ rest, bindRest kw (f.params.drop pos.length) = .ok rest ∧ args = pos ++ rest := by
    intro args
    rw [hkw]
    constructor
    · rintro ⟨hl, hle, hk, h⟩
      refine ⟨by omega, hk, args.drop pos.length, ?_⟩
      have e : args = pos ++ args.drop pos.length := by
        have : args.take pos.length = pos := by
          apply List.ext_getElem?
          intro i
          by_cases hi : i < pos.length
          · rw [List.getElem?_take_of_lt hi]
            have e1 : args[i]? = some (args[i]'(by omega)) := List.getElem?_eq_getElem (by omega)
            have e3 : f.params[i]? = some (f.params[i]'(by omega)) := List.getElem?_eq_getElem (by omega)
            have := h i _ _ _ e3 e1
            rw [if_pos hi] at this
            rw [e1, this]
          · rw [List.getElem?_eq_none (by simp; omega), List.getElem?_eq_none (by omega)]
        conv => lhs; rw [← List.take_append_drop pos.length args, this]
      refine ⟨?_, e⟩
      rw [hrest _ (by omega), ← e]
      exact ⟨hl, h⟩
    · rintro ⟨hle, hk, rest, hb, rfl⟩
      obtain ⟨hl, h⟩ := (hrest rest (by omega)).mp hb
      exact ⟨hl, by omega, hk, h⟩
  constructor
  · intro args h
    obtain ⟨h1, h2, rest, h3, rfl⟩ := (main args).mp h
    unfold PyFun.call
    rw [if_neg h1, if_neg (by simp only [Bool.not_eq_true]; exact h2), h3]
  · intro h
    unfold PyFun.call
    by_cases h1 : f.params.length < pos.length
    · rw [if_pos h1]
    rw [if_neg h1]
    cases h2 : (kw.any fun k => ((f.params.take pos.length).map Prod.fst).contains k.1 || !(f.params.map Prod.fst).contains k.1) with
    | true => rw [if_pos rfl]
    | false =>
      rw [if_neg (by decide)]
      cases h3 : bindRest kw (f.params.drop pos.length) with
      | error e => rw [bindRest_error h3]
      | ok rest => exact absurd ⟨_, (main _).mpr ⟨h1, h2, rest, h3, rfl⟩⟩ h

/-! ### Inspecting the parameters -/

theorem inspectArgs_spec (uses : Bool) (params : List (String × Option Val)) :
    (uses = false ∧ (∃ d, ("time", d) ∈ params) ∧ inspectArgs uses params = .error .valueError) ∨
    (¬ (uses = false ∧ ∃ d, ("time", d) ∈ params) ∧ ∃ t kw, inspectArgs uses params = .ok (t, kw) ∧
      (t = true ↔ ∃ d, ("time", d) ∈ params) ∧ kw = params.filterMap fun p => p.2.map fun v => (p.1, v)) := by
  induction params with
  | nil => exact .inr ⟨by simp, false, [], rfl, by simp, rfl⟩
  | cons p ps ih =>
    obtain ⟨n, d⟩ := p
    rw [inspectArgs]
    by_cases h : n = "time" ∧ uses = false
    · rw [if_pos h]
      obtain ⟨rfl, rfl⟩ := h
      exact .inl ⟨rfl, ⟨d, List.mem_cons_self⟩, rfl⟩
    · rw [if_neg h]
      rcases ih with ⟨hu, ⟨d', hd'⟩, he⟩ | ⟨hno, t, kw, he, ht, rfl⟩
      · rw [he]
        exact .inl ⟨hu, ⟨d', List.mem_cons_of_mem _ hd'⟩, rfl⟩
      · rw [he]
        refine .inr ⟨?_, _, _, rfl, ?_, ?_⟩
        · rintro ⟨hu, d', hd'⟩
          rcases List.mem_cons.mp hd' with e | hd'
          · cases e
            exact h ⟨rfl, hu⟩
          · exact hno ⟨hu, d', hd'⟩
        · rw [Bool.or_eq_true, ht, decide_eq_true_iff]
          constructor
          · rintro (rfl | ⟨d', hd'⟩)
            · exact ⟨d, List.mem_cons_self⟩
            · exact ⟨d', List.mem_cons_of_mem _ hd'⟩
          · rintro ⟨d', hd'⟩
            rcases List.mem_cons.mp hd' with e | hd'
            · cases e
              exact .inl rfl
            · exact .inr ⟨d', hd'⟩
        · cases d <;> simp

theorem lookup_defaults (params : List (String × Option Val)) (hn : (params.map Prod.fst).Nodup) (i : Nat) (n : String) (d : Option Val)
    (h : params[i]? = some (n, d)) : (params.filterMap fun p => p.2.map fun v => (p.1, v)).lookup n = d := by
  induction params generalizing i with
  | nil => simp at h
  | cons p ps ih =>
    obtain ⟨n', d'⟩ := p
    rw [List.map_cons, List.nodup_cons] at hn
    match i with
    | 0 =>
      simp at h
      obtain ⟨rfl, rfl⟩ := h
      cases d' with
      | none =>
        simp only [List.filterMap_cons, Option.map_none]
        rw [lookup_none_iff]
        intro v hv
        obtain ⟨q, hq, e⟩ := List.mem_filterMap.mp hv
        obtain ⟨v', h1, h2⟩ := Option.map_eq_some_iff.mp e
        cases h2
        exact hn.1 (List.mem_map.mpr ⟨q, hq, rfl⟩)
      | some v => simp
    | i + 1 =>
      have h' : ps[i]? = some (n, d) := by simpa using h
      have hne : n ≠ n' := by
        rintro rfl
        exact hn.1 (List.mem_map.mpr ⟨_, List.mem_of_getElem? h', rfl⟩)
      have := ih hn.2 i h'
      cases d' with
      | none => simpa using this
      | some v =>
        simp only [List.filterMap_cons, Option.map_some]
        rw [List.lookup_cons, beq_eq_false_iff_ne.mpr hne]
        exact this

theorem make_ok (kind : MadeKind) (a : MakeArgs) (c : MadeClass) (h : makePrimitive kind a = .ok c) :
    c.kind = kind ∧ c.fn = a.function ∧ c.defaults = (a.function.params.filterMap fun p => p.2.map fun v => (p.1, v)) := by
  rcases inspectArgs_spec a.usesCalcTime a.function.params with ⟨_, _, he⟩ | ⟨_, t, kw, he, _, rfl⟩
  · cases kind <;> simp only [makePrimitive, makeAggPrimitive, makeTransPrimitive, he] at h <;> cases h
  · cases kind <;> simp only [makePrimitive, makeAggPrimitive, makeTransPrimitive, he] at h <;> cases h <;> exact ⟨rfl, rfl, rfl⟩

end FT
