import Verif.Lemmas.PrimFile
/-! # Loading primitives (C49) -/
namespace FT
open Spec

/-- C49: whatever was requested before, a request for a class that is there once is answered with this class, built with the given
arguments. -/
theorem C49_lookup_partial (root : ClassTree) (before : List PDict) (d : PDict) (c : PClass) (hc : InTree root c)
    (hk : c.key = (d.type, d.module)) (hu : ∀ c', InTree root c' → c'.key = (d.type, d.module) → c' = c) :
    (deserializePrimitive (deserializeAll (PDeser.new root) before) d).1 = construct c d.arguments := by
  rcases deserialize_result (deserializeAll_state before (new_ok root)) d with ⟨h, _⟩ | ⟨c', hc', hk', h⟩
  · exact absurd hk (h c ((mem_descendants _ _).mpr hc))
  · rw [h, hu c' ((mem_descendants _ _).mp hc') hk']

/-- C49: whatever was requested before, an unknown primitive is reported. -/
theorem C49_unknown (root : ClassTree) (before : List PDict) (d : PDict) (hk : ∀ c, InTree root c → c.key ≠ (d.type, d.module)) :
    (deserializePrimitive (deserializeAll (PDeser.new root) before) d).1 = .error .runtimeError := by
  rcases deserialize_result (deserializeAll_state before (new_ok root)) d with ⟨_, h⟩ | ⟨c', hc', hk', h⟩
  · exact h
  · exact absurd hk' (hk c' ((mem_descendants _ _).mp hc'))

/-- C49: a primitive that is returned has the requested name and module. -/
theorem C49_requested (root : ClassTree) (before : List PDict) (d : PDict) (p : PInst)
    (h : (deserializePrimitive (deserializeAll (PDeser.new root) before) d).1 = .ok p) :
    InTree root p.cls ∧ p.cls.key = (d.type, d.module) := by
  rcases deserialize_result (deserializeAll_state before (new_ok root)) d with ⟨_, h'⟩ | ⟨c', hc', hk', h'⟩
  · rw [h'] at h; cases h
  · rw [h'] at h
    unfold construct at h
    split at h
    · cases h
    · split at h
      · cases h
      · cases h; exact ⟨(mem_descendants _ _).mp hc', hk'⟩

/-- C49: a primitive comes back as it was saved, if its class is there once and no argument is a Boolean equal to a numeric
default. -/
theorem C49_roundtrip_partial (root : ClassTree) (before : List PDict) (p : PInst) (hc : InTree root p.cls)
    (hu : ∀ c, InTree root c → c.key = p.cls.key → c = p.cls) (hn : (p.cls.params.map Prod.fst).Nodup)
    (hl : p.cls.params.length = p.args.length)
    (hb : ∀ (i : Nat) n d b, p.cls.params[i]? = some (n, some (.num d)) → p.args[i]? = some (.bool b) → d ≠ if b then 1 else 0) :
    (deserializePrimitive (deserializeAll (PDeser.new root) before) (serializePrimitive p)).1 = .ok p := by
  rw [C49_lookup_partial root before (serializePrimitive p) p.cls hc rfl hu]
  have hargs : ∀ x ∈ p.getArguments, x.1 ∈ p.cls.params.map Prod.fst := by
    intro x hx
    obtain ⟨y, hy, rfl⟩ := List.mem_map.mp hx
    exact List.mem_map.mpr ⟨y.1, (List.of_mem_zip (List.mem_filter.mp hy).1).1, rfl⟩
  unfold construct
  rw [if_neg]
  · rw [bindParams_of (vs := p.args) hl]
    intro i hi hj
    have := lookup_filtered hn hl i hi hj
    simp only [serializePrimitive, PInst.getArguments]
    rw [this]
    by_cases hd : isDefault p.cls.params[i].2 p.args[i] = true
    · rw [if_pos hd]
      rw [Option.none_or]
      have hb' := fun n d b => hb i n d b
      rw [List.getElem?_eq_getElem hi, List.getElem?_eq_getElem hj] at hb'
      generalize p.cls.params[i] = q at hd hb' ⊢
      generalize p.args[i] = v at hd hb' ⊢
      obtain ⟨n, d⟩ := q
      simp only at hd ⊢
      unfold isDefault at hd
      split at hd
      · next k b => exact absurd (by simpa using hd) (hb' n k b rfl rfl)
      · simpa using hd
    · rw [if_neg hd, Option.some_or]
  · simp only [Bool.not_eq_true, List.any_eq_false, Bool.not_eq_true', Bool.not_eq_false]
    intro x hx
    simpa using hargs x hx

/-- C49: a primitive that is returned has each parameter as requested, or else its default; a request with an argument the class does
not know is not answered. -/
theorem C49_arguments (root : ClassTree) (before : List PDict) (d : PDict) (p : PInst)
    (h : (deserializePrimitive (deserializeAll (PDeser.new root) before) d).1 = .ok p) :
    p.args.length = p.cls.params.length ∧ (∀ a ∈ d.arguments, a.1 ∈ p.cls.params.map Prod.fst) ∧
      ∀ (i : Nat) n dflt, p.cls.params[i]? = some (n, dflt) →
        ∃ v, p.args[i]? = some v ∧ (d.arguments.lookup n = some v ∨ d.arguments.lookup n = none ∧ dflt = some v) := by
  rcases deserialize_result (deserializeAll_state before (new_ok root)) d with ⟨_, h'⟩ | ⟨c', hc', hk', h'⟩
  · rw [h'] at h; cases h
  · rw [h'] at h
    unfold construct at h
    split at h
    · cases h
    · next ha =>
      split at h
      · cases h
      · next vs hv =>
        cases h
        obtain ⟨h1, h2⟩ := bindParams_inv hv
        refine ⟨h1.symm, ?_, ?_⟩
        · simpa using ha
        · intro i n dflt hi
          obtain ⟨v, hv1, hv2⟩ := h2 i n dflt hi
          refine ⟨v, hv1, ?_⟩
          cases hl : d.arguments.lookup n with
          | none => rw [hl] at hv2; exact .inr ⟨rfl, by simpa using hv2⟩
          | some w => rw [hl] at hv2; exact .inl (by simpa using hv2)

namespace PrimFileExample
def base : PClass := ⟨("PrimitiveBase", "base"), 0, []⟩
def agg : PClass := ⟨("AggregationPrimitive", "base"), 1, []⟩
def nMost : PClass := ⟨("NMostCommon", "standard"), 2, [("n", some (.num 3))]⟩
def twin : PClass := ⟨("Own", "user"), 3, []⟩
def twin' : PClass := ⟨("Own", "user"), 4, []⟩
def last : PClass := ⟨("Last", "standard"), 5, []⟩
def root : ClassTree := .node base [.node agg [.node nMost [], .node twin [], .node twin' [], .node last []]]
/-- The hypotheses of the round trip are met. -/
example : (InTree root nMost ∧ (∀ c, InTree root c → c.key = nMost.key → c = nMost)) ∧ (nMost.params.map Prod.fst).Nodup ∧
    (∀ (i : Nat) n d b, nMost.params[i]? = some (n, some (.num d)) → [Val.num 5][i]? = some (.bool b) → d ≠ if b then 1 else 0) := by
  simp only [← mem_descendants]
  refine ⟨by decide, by decide, ?_⟩
  intro i n d b _ h
  match i with
  | 0 => cases h
  | i + 1 => simp at h
example : (deserializePrimitive (deserializeAll (PDeser.new root) [⟨"Last", "standard", []⟩]) (serializePrimitive ⟨nMost, [.num 5]⟩)).1 = .ok ⟨nMost, [.num 5]⟩ := by
  decide
example : ∀ c, InTree root c → c.key ≠ ("Mystery", "standard") := by
  simp only [← mem_descendants]
  decide
end PrimFileExample
open PrimFileExample

/-- C49 does not hold for a class defined twice: which of the two is returned depends on what was requested before. -/
theorem C49_twice_violated :
    (deserializePrimitive (PDeser.new root) ⟨"Own", "user", []⟩).1 = .ok ⟨twin, []⟩ ∧
    (deserializePrimitive (deserializeAll (PDeser.new root) [⟨"Last", "standard", []⟩]) ⟨"Own", "user", []⟩).1 = .ok ⟨twin', []⟩ ∧ twin ≠ twin' := by
  decide

/-- C49: an argument `True` where the default is 1 comes back as 1. -/
theorem C49_true_violated :
    ∃ c v, (deserializePrimitive (PDeser.new (.node c [])) (serializePrimitive ⟨c, [.bool true]⟩)).1 = .ok ⟨c, [v]⟩ ∧ v ≠ .bool true :=
  ⟨⟨("A", "m"), 0, [("n", some (.num 1))]⟩, .num 1, by decide, by decide⟩

end FT
