import Verif.Lemmas.LastTimeDask
import Verif.Props.LastTime
/-! # Last time indexes on Dask: C12 -/
namespace FT
open Spec

/-- **C12 on Dask.** When `add_last_time_indexes()` returns, every entity has, for each of its rows, the latest of the times at
which the row or a row below it was observed, and nothing if there is none. Unlike on pandas, rows that were never observed
do no harm. Missing: the conditions of `Dated`; see the violations below. -/
theorem C12_dask_last_time_partial (es es' : ESet) (order : List String → List String) (fuel : Nat) (hw : Wired es) (ho : Dated es)
    (h : addLastTimeIndexesDask es order [] fuel = some es') :
    ∃ lti : String → List (Val × Val), es'.entities = es.entities.map (fun x => { x with lti := some (lti x.id) }) ∧
      es'.rels = es.rels ∧ es'.timeType = es.timeType ∧ ∀ x ∈ es.entities, LtiOk es x (lti x.id) := by
  simp only [addLastTimeIndexesDask, List.isEmpty_nil, if_true] at h
  obtain ⟨lti, rfl, h1, _⟩ := ltiRun_okD hw ho (fun x hx hn => absurd (List.mem_map_of_mem hx) hn) h
  have key : ∀ x ∈ es.entities, ∃ l, lti x.id = some l ∧ LtiOk es x l := by
    intro x hx
    obtain ⟨y, l, hy, hl, hok⟩ := h1 x.id (List.mem_map_of_mem hx)
    rw [get?_of_mem hw.ids hx] at hy
    cases hy
    exact ⟨l, hl, hok⟩
  refine ⟨fun e => (lti e).getD [], ?_, rfl, rfl, ?_⟩
  · apply List.map_congr_left
    intro x hx
    obtain ⟨l, hl, _⟩ := key x hx
    simp only [hl]; rfl
  · intro x hx
    obtain ⟨l, hl, hok⟩ := key x hx
    simp only [hl]; exact hok

/-- **C12 on Dask.** Updating after the data of some entities changed. -/
theorem C12_dask_updated_partial (es es' : ESet) (order : List String → List String) (hord : ∀ l, (order l).Perm l) (updated : List String)
    (hne : updated ≠ []) (fuel : Nat) (hw : Wired es) (ho : Dated es)
    (hold : ∀ x ∈ es.entities, ¬ Above es updated x.id → ∀ l, x.lti = some l → LtiOk es x l)
    (h : addLastTimeIndexesDask es order updated fuel = some es') :
    ∃ lti : String → Option (List (Val × Val)), es'.entities = es.entities.map (fun x => { x with lti := lti x.id }) ∧
      (∀ x ∈ es.entities, Above es updated x.id → ∃ l, lti x.id = some l ∧ LtiOk es x l) ∧
      ∀ x ∈ es.entities, ¬ Above es updated x.id → ∀ l, x.lti = some l → lti x.id = some l := by
  unfold addLastTimeIndexesDask at h
  rw [if_neg (by simpa using hne)] at h
  split at h
  · cases h
  · rename_i parents hp
    obtain ⟨_, hmem⟩ := parentLoop_spec hp (fun e he => .inl he) (fun e he => .here he) (fun e he => by cases he) (fun e he => by cases he) List.nodup_nil
    have hq : ∀ e, e ∈ order parents ↔ Above es updated e := fun e => (hord parents).mem_iff.trans (hmem e)
    obtain ⟨lti, rfl, h1, h2⟩ := ltiRun_okD hw ho (fun x hx hn l hl => hold x hx (fun ha => hn ((hq _).mpr ha)) l hl) h
    refine ⟨lti, rfl, ?_, fun x hx hn l hl => h2 x hx (fun hm => hn ((hq _).mp hm)) l hl⟩
    intro x hx ha
    obtain ⟨y, l, hy, hl, hok⟩ := h1 x.id ((hq _).mpr ha)
    rw [get?_of_mem hw.ids hx] at hy
    cases hy
    exact ⟨l, hl, hok⟩

/-- **C12 on Dask.** The call returns on Dask just when it does on pandas, for any entity set. -/
theorem C12_dask_returns_iff (es : ESet) (order : List String → List String) (updated : List String) (fuel : Nat) :
    (addLastTimeIndexesDask es order updated fuel).isSome = (addLastTimeIndexes es order updated fuel).isSome := by
  unfold addLastTimeIndexes addLastTimeIndexesDask
  split
  · exact (ltiRun_shape es fuel _).symm
  · cases parentLoop es.rels fuel updated [] with
    | none => rfl
    | some l => exact (ltiRun_shape es fuel _).symm

/-- **C12 on Dask.** The call returns when following relationships from parents to children ends. -/
theorem C12_dask_terminates (es : ESet) (order : List String → List String) (hord : ∀ l, (order l).Perm l) (updated : List String)
    (hup : ∀ e ∈ updated, e ∈ es.entities.map Entity.id) (hw : Wired es) (ha : ChildrenEnd es) :
    ∃ n es', ∀ fuel, n ≤ fuel → addLastTimeIndexesDask es order updated fuel = some es' := by
  obtain ⟨rank, hr⟩ := ha
  have run : ∀ queue : List String, queue.Nodup → (∀ e ∈ queue, e ∈ es.entities.map Entity.id) →
      ∃ n es', ∀ fuel, n ≤ fuel → ltiRunDask es fuel queue = some es' := by
    intro queue hn hk
    obtain ⟨n, st0, h0⟩ := ltiLoop_ends (todo := queue) hw hr _ _
      { queue := queue, explored := [], lti := fun e => if queue.contains e then none else (es.get? e).bind Entity.lti }
      ⟨hn, hk, (fun e _ h => by cases h), fun e he => .inl he⟩ (Nat.le_refl _) (Nat.le_refl _)
    have hsome := ltiLoop_shape es queue n
      (st := { queue := queue, explored := [], lti := fun e => if queue.contains e then none else (es.get? e).bind Entity.lti })
      (sd := { queue := queue, explored := [], lti := fun e => if queue.contains e then none else (es.get? e).bind Entity.lti }) rfl rfl
    rw [h0] at hsome
    obtain ⟨st, h⟩ := Option.isSome_iff_exists.mp hsome.symm
    refine ⟨n, { es with entities := es.entities.map fun x => { x with lti := st.lti x.id }, cache := none }, fun fuel hf => ?_⟩
    unfold ltiRunDask
    rw [ltiLoop_monoD h hf]
  by_cases hu : updated = []
  · subst hu
    obtain ⟨n, es', h⟩ := run (es.entities.map Entity.id) hw.ids fun _ h => h
    exact ⟨n, es', fun fuel hf => by simp only [addLastTimeIndexesDask, List.isEmpty_nil, if_true]; exact h fuel hf⟩
  · obtain ⟨n, l, h⟩ := parentLoop_ends (rels := es.rels) (es.entities.map Entity.id) hw.parents _ _ updated [] hup (Nat.le_refl _) (Nat.le_refl _)
    obtain ⟨hnd, hmem⟩ := parentLoop_spec h (updated := updated) (fun e he => .inl he) (fun e he => .here he) (fun e he => by cases he)
      (fun e he => by cases he) List.nodup_nil
    have habove : ∀ e, Above es updated e → e ∈ es.entities.map Entity.id := by
      intro e he
      induction he with
      | here h => exact hup _ h
      | parent _ hr _ _ => exact hw.parents _ hr
    obtain ⟨k, es', hk⟩ := run (order l) ((hord l).nodup_iff.mpr hnd) (fun e he => habove e ((hmem e).mp ((hord l).mem_iff.mp he)))
    refine ⟨max n k, es', fun fuel hf => ?_⟩
    unfold addLastTimeIndexesDask
    rw [if_neg (by simpa using hu), parentLoop_mono h (by omega)]
    exact hk fuel (by omega)

/-- **C12 on Dask.** Where pandas gives what is documented, and index values are there and distinct, Dask gives the same. -/
theorem C12_dask_agrees_partial (es es' : ESet) (order : List String → List String) (fuel : Nat) (hw : Wired es) (ho : Orderly es)
    (hk : ∀ x ∈ es.entities, (x.df.rows.map fun r => r x.index).Nodup) (hp : ∀ x ∈ es.entities, ∀ r ∈ x.df.rows, r x.index ≠ .null) :
    addLastTimeIndexesDask es order [] fuel = some es' ↔ addLastTimeIndexes es order [] fuel = some es' := by
  have hd : Dated es := ⟨ho.single, ho.times, hk, hp⟩
  have key : ∀ a b, addLastTimeIndexesDask es order [] fuel = some a → addLastTimeIndexes es order [] fuel = some b → a = b := by
    intro a b ha hb
    have hca : a.cache = none := by
      simp only [addLastTimeIndexesDask, List.isEmpty_nil, if_true, ltiRunDask] at ha
      split at ha
      · cases ha
      · cases ha; rfl
    have hcb : b.cache = none := by
      simp only [addLastTimeIndexes, List.isEmpty_nil, if_true, ltiRun] at hb
      split at hb
      · cases hb
      · cases hb; rfl
    obtain ⟨la, a1, a2, a3, a4⟩ := C12_dask_last_time_partial es a order fuel hw hd ha
    obtain ⟨lb, b1, b2, b3, b4⟩ := C12_last_time_partial es b order fuel hw ho hb
    have he : a.entities = b.entities := by
      rw [a1, b1]
      apply List.map_congr_left
      intro x hx
      rw [ltiOk_unique (a4 x hx) (b4 x hx)]
    cases a; cases b
    simp only at *
    subst he a2 a3 b2 b3 hca hcb
    rfl
  have hs := C12_dask_returns_iff es order [] fuel
  constructor
  · intro h
    rw [h] at hs
    obtain ⟨b, hb⟩ := Option.isSome_iff_exists.mp hs.symm
    rw [hb, key es' b h hb]
  · intro h
    rw [h] at hs
    obtain ⟨a, ha⟩ := Option.isSome_iff_exists.mp hs
    rw [ha, key a es' ha h]

/-! ### Examples and violations -/

namespace LtiDaskExample
open LtiExample

theorem es_dated (ti : Option String) (hti : ti = none ∨ ti = some "t") : Dated (es ti) := by
  refine ⟨by show ∀ r ∈ rels, ∀ r' ∈ rels, _; decide, ?_, ?_, ?_⟩
  · rcases hti with rfl | rfl
    · intro x hx t ht r hr
      simp only [es, List.mem_cons, List.not_mem_nil, or_false] at hx
      rcases hx with rfl | rfl | rfl
      · cases ht
      · cases ht
      · exact es_orderly.times trans (by simp [es]) t ht r hr
    · exact es_orderly.times
  · intro x hx
    simp only [es, List.mem_cons, List.not_mem_nil, or_false] at hx
    rcases hx with rfl | rfl | rfl
    · decide
    · show [Val.num 11, .num 12].Nodup; decide
    · decide
  · intro x hx r hr
    have h : r x.index ∈ x.df.rows.map fun r => r x.index := List.mem_map_of_mem hr
    simp only [es, List.mem_cons, List.not_mem_nil, or_false] at hx
    intro hn
    rw [hn] at h
    rcases hx with rfl | rfl | rfl
    · exact absurd h (by decide)
    · exact absurd h (by show ¬ Val.null ∈ [Val.num 11, .num 12]; decide)
    · exact absurd h (by decide)

/-- Two rows with the same index value. -/
def dup : Entity := ent "sessions" "sid" (some "t") [Row.ofList [("sid", .num 11), ("cust", .num 1), ("t", .num 40)],
  Row.ofList [("sid", .num 11), ("cust", .num 2), ("t", .num 60)]]
def esD : ESet := { entities := [custs, dup], rels := [⟨"custs", "id", "sessions", "cust"⟩], timeType := none, cache := none }

end LtiDaskExample

open LtiExample LtiDaskExample in
/-- The hypotheses are met, also by sessions without times, where pandas fails (`C12_missing_time_violated`): customer 1 was
last observed at time 90. -/
example : Wired (es none) ∧ Dated (es none) ∧
    (addLastTimeIndexesDask (es none) id [] 9).map (fun e => e.entities.map Entity.lti) =
      some [some [(.num 1, .num 90), (.num 2, .null)], some [(.num 11, .num 90), (.num 12, .null)], some [(.num 1, .num 50), (.num 2, .num 90)]] ∧
    (addLastTimeIndexesDask (es none) id ["trans"] 9).isSome = true :=
  ⟨es_wired _, es_dated _ (.inl rfl), by decide, by decide⟩

open LtiExample LtiDaskExample in
/-- The hypotheses of `C12_dask_updated_partial` and `C12_dask_terminates` are met: no entity has a last time index before. -/
example : (∀ l : List String, (id l).Perm l) ∧ (∀ e ∈ ["trans"], e ∈ (es none).entities.map Entity.id) ∧ Wired (es none) ∧ Dated (es none) ∧
    ChildrenEnd (es none) ∧
    (∀ x ∈ (es none).entities, ¬ Above (es none) ["trans"] x.id → ∀ l, x.lti = some l → LtiOk (es none) x l) ∧
    (addLastTimeIndexesDask (es none) id ["trans"] 9).map (fun e => e.entities.map fun x => x.lti.isSome) = some [true, true, true] := by
  refine ⟨fun l => .refl l, by decide, es_wired _, es_dated _ (.inl rfl), es_acyclic _, ?_, by decide⟩
  intro x hx _ l hl
  simp only [es, List.mem_cons, List.not_mem_nil, or_false] at hx
  rcases hx with rfl | rfl | rfl <;> cases hl

open LtiExample LtiDaskExample in
/-- The hypotheses of `C12_dask_agrees_partial` are met. -/
example : Wired (es (some "t")) ∧ Orderly (es (some "t")) ∧ (∀ x ∈ (es (some "t")).entities, (x.df.rows.map fun r => r x.index).Nodup) ∧
    (∀ x ∈ (es (some "t")).entities, ∀ r ∈ x.df.rows, r x.index ≠ .null) ∧ (addLastTimeIndexesDask (es (some "t")) id [] 9).isSome = true :=
  ⟨es_wired _, es_orderly, (es_dated _ (.inr rfl)).keys, (es_dated _ (.inr rfl)).present, by decide⟩

open LtiExample in
/-- **Dask and pandas differ** when a child row was never observed: on the same entity set customer 1 was last observed at time
90, or never. -/
theorem C12_dask_pandas_differ_violated :
    (addLastTimeIndexesDask (es none) id [] 9).map (fun e => (e.get? "custs").bind Entity.lti) = some (some [(.num 1, .num 90), (.num 2, .null)]) ∧
    (addLastTimeIndexes (es none) id [] 9).map (fun e => (e.get? "custs").bind Entity.lti) = some (some [(.num 1, .null), (.num 2, .null)]) :=
  ⟨by decide, by decide⟩

open LtiExample LtiDaskExample in
/-- **C12 is violated on Dask** when two rows have the same index value, which is not checked there: customer 1 gets time 60
from the session of customer 2, although none of their rows was observed then. -/
theorem C12_dask_duplicate_index_violated :
    (addLastTimeIndexesDask esD id [] 9).map (fun e => (e.get? "custs").bind Entity.lti) = some (some [(.num 1, .num 60), (.num 2, .num 60)]) ∧
    Wired esD ∧ ∀ r ∈ custs.df.rows, r "id" = .num 1 → ¬ HasTime esD "custs" r 60 := by
  have hw : Wired esD := ⟨by show ["custs", "sessions"].Nodup; decide, by show ∀ r ∈ esD.rels, r.parentE ∈ ["custs", "sessions"]; decide,
    by show ∀ r ∈ esD.rels, r.childE ∈ ["custs", "sessions"]; decide⟩
  refine ⟨by decide, hw, ?_⟩
  intro r hr hid h
  rcases hasTime_inv hw (x := custs) (by simp [esD]) h with ⟨t, ht, _⟩ | ⟨rel, hrel, _, c, hc, hci, s, hs, he, h⟩
  · cases ht
  · have hrel' : rel = ⟨"custs", "id", "sessions", "cust"⟩ := by simpa [esD] using hrel
    subst hrel'
    simp only [esD, List.mem_cons, List.not_mem_nil, or_false] at hc
    rcases hc with rfl | rfl
    · exact absurd hci (by decide)
    · rcases hasTime_inv hw (x := dup) (by simp [esD]) h with ⟨t, ht, hm⟩ | ⟨rel, hrel, hpa, _⟩
      · cases ht
        have hs' : s = dup.df.rows[0]'(by decide) ∨ s = dup.df.rows[1]'(by decide) := by simpa [dup, ent] using hs
        rcases hs' with rfl | rfl
        · exact absurd hm (by decide)
        · have he' : (dup.df.rows[1]'(by decide)) "cust" = r "id" := he
          rw [hid] at he'
          exact absurd he' (by decide)
      · have hrel' : rel = ⟨"custs", "id", "sessions", "cust"⟩ := by simpa [esD] using hrel
        subst hrel'
        exact absurd hpa (by decide)

end FT
