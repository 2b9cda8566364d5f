import Verif.Lemmas.LastTime
import Verif.Props.EntitySet
/-! # Properties of last time indexes: C12 -/
namespace FT
open Spec

/-- What the loop over a queue leaves behind. -/
theorem ltiRun_ok {es es' : ESet} (hw : Wired es) (ho : Orderly es) {queue : List String} {fuel : Nat}
    (hold : ∀ x ∈ es.entities, x.id ∉ queue → ∀ l, x.lti = some l → LtiOk es x l) (h : ltiRun es fuel queue = some es') :
    ∃ lti : String → Option Lti, es' = { es with entities := es.entities.map fun x => { x with lti := lti x.id }, cache := none } ∧
      (∀ e ∈ queue, ∃ x l, es.get? e = some x ∧ lti e = some l ∧ LtiOk es x l) ∧
      ∀ x ∈ es.entities, x.id ∉ queue → ∀ l, x.lti = some l → lti x.id = some l := by
  unfold ltiRun at h
  split at h
  · cases h
  · rename_i st hst
    cases h
    have hinv : LtiInv es (fun e => if queue.contains e then none else (es.get? e).bind Entity.lti)
        { queue := queue, explored := [], lti := fun e => if queue.contains e then none else (es.get? e).bind Entity.lti } := by
      constructor
      · intro e x l _ h _; exact h
      · intro e he; cases he
      · intro e l x hl hx
        simp only at hl
        split at hl
        · cases hl
        · rename_i hc
          rw [hx] at hl
          have hxe := get?_mem hx
          exact ltiOk_part hxe.1 (hold x hxe.1 (by rw [hxe.2]; simpa using hc) l hl)
    obtain ⟨h1, h2⟩ := ltiLoop_inv hw ho hinv hst
    refine ⟨st.lti, rfl, fun e he => h1.done e (h2 e he), fun x hx hq l hl => ?_⟩
    refine h1.kept x.id x l (get?_of_mem hw.ids hx) ?_ (hold x hx hq l hl)
    simp [hq, get?_of_mem hw.ids hx, hl]

/-- **C12.** When `add_last_time_indexes()` returns, every entity has, for each of its rows, the latest of the times at which
the row or a row below it in any number of relationships was observed, and nothing if there is none; everything else is as
before. Missing: the conditions of `Orderly`; see the violations below. -/
theorem C12_last_time_partial (es es' : ESet) (order : List String → List String) (fuel : Nat) (hw : Wired es) (ho : Orderly es)
    (h : addLastTimeIndexes es order [] fuel = some es') :
    ∃ lti : String → List (Val × Val), es'.entities = es.entities.map (fun x => { x with lti := some (lti x.id) }) ∧
      es'.rels = es.rels ∧ es'.timeType = es.timeType ∧ ∀ x ∈ es.entities, LtiOk es x (lti x.id) := by
  simp only [addLastTimeIndexes, List.isEmpty_nil, if_true] at h
  obtain ⟨lti, rfl, h1, _⟩ := ltiRun_ok hw ho (fun x hx hn => absurd (List.mem_map_of_mem hx) hn) h
  have key : ∀ x ∈ es.entities, ∃ l, lti x.id = some l ∧ LtiOk es x l := by
    intro x hx
    obtain ⟨y, l, hy, hl, hok⟩ := h1 x.id (List.mem_map_of_mem hx)
    rw [get?_of_mem hw.ids hx] at hy
    cases hy
    exact ⟨l, hl, hok⟩
  refine ⟨fun e => (lti e).getD [], ?_, rfl, rfl, ?_⟩
  · apply List.map_congr_left
    intro x hx
    obtain ⟨l, hl, _⟩ := key x hx
    simp only [hl]; rfl
  · intro x hx
    obtain ⟨l, hl, hok⟩ := key x hx
    simp only [hl]; exact hok

/-- **C12.** Updating after the data of some entities changed: if the other entities, apart from parents, have right last time
indexes or none, then afterwards the given entities and all their parents have right ones, and the last time indexes of the
others are as they were. The order in which Python goes through a set does not matter. -/
theorem C12_updated_partial (es es' : ESet) (order : List String → List String) (hord : ∀ l, (order l).Perm l) (updated : List String)
    (hne : updated ≠ []) (fuel : Nat) (hw : Wired es) (ho : Orderly es)
    (hold : ∀ x ∈ es.entities, ¬ Above es updated x.id → ∀ l, x.lti = some l → LtiOk es x l)
    (h : addLastTimeIndexes es order updated fuel = some es') :
    ∃ lti : String → Option (List (Val × Val)), es'.entities = es.entities.map (fun x => { x with lti := lti x.id }) ∧
      (∀ x ∈ es.entities, Above es updated x.id → ∃ l, lti x.id = some l ∧ LtiOk es x l) ∧
      ∀ x ∈ es.entities, ¬ Above es updated x.id → ∀ l, x.lti = some l → lti x.id = some l := by
  unfold addLastTimeIndexes at h
  rw [if_neg (by simpa using hne)] at h
  split at h
  · cases h
  · rename_i parents hp
    obtain ⟨_, hmem⟩ := parentLoop_spec hp (fun e he => .inl he) (fun e he => .here he) (fun e he => by cases he) (fun e he => by cases he) List.nodup_nil
    have hq : ∀ e, e ∈ order parents ↔ Above es updated e := fun e => (hord parents).mem_iff.trans (hmem e)
    obtain ⟨lti, rfl, h1, h2⟩ := ltiRun_ok hw ho (fun x hx hn l hl => hold x hx (fun ha => hn ((hq _).mpr ha)) l hl) h
    refine ⟨lti, rfl, ?_, fun x hx hn l hl => h2 x hx (fun hm => hn ((hq _).mp hm)) l hl⟩
    intro x hx ha
    obtain ⟨y, l, hy, hl, hok⟩ := h1 x.id ((hq _).mpr ha)
    rw [get?_of_mem hw.ids hx] at hy
    cases hy
    exact ⟨l, hl, hok⟩

/-- **C12.** There is only one right last time index. -/
theorem C12_unique (es : ESet) (x : Entity) (l l' : List (Val × Val)) (h : LtiOk es x l) (h' : LtiOk es x l') : l = l' := ltiOk_unique h h'

/-- **C12.** The call returns when following relationships from parents to children ends: with enough fuel it has a result,
and more fuel does not change it. -/
theorem C12_terminates (es : ESet) (order : List String → List String) (hord : ∀ l, (order l).Perm l) (updated : List String)
    (hup : ∀ e ∈ updated, e ∈ es.entities.map Entity.id) (hw : Wired es) (ha : ChildrenEnd es) :
    ∃ n es', ∀ fuel, n ≤ fuel → addLastTimeIndexes es order updated fuel = some es' := by
  obtain ⟨rank, hr⟩ := ha
  have run : ∀ queue : List String, queue.Nodup → (∀ e ∈ queue, e ∈ es.entities.map Entity.id) →
      ∃ n es', ∀ fuel, n ≤ fuel → ltiRun es fuel queue = some es' := by
    intro queue hn hk
    obtain ⟨n, st, h⟩ := ltiLoop_ends (todo := queue) hw hr _ _
      { queue := queue, explored := [], lti := fun e => if queue.contains e then none else (es.get? e).bind Entity.lti }
      ⟨hn, hk, (fun e _ h => by cases h), fun e he => .inl he⟩ (Nat.le_refl _) (Nat.le_refl _)
    refine ⟨n, { es with entities := es.entities.map fun x => { x with lti := st.lti x.id }, cache := none }, fun fuel hf => ?_⟩
    unfold ltiRun
    rw [ltiLoop_mono h hf]
  by_cases hu : updated = []
  · subst hu
    obtain ⟨n, es', h⟩ := run (es.entities.map Entity.id) hw.ids fun _ h => h
    exact ⟨n, es', fun fuel hf => by simp only [addLastTimeIndexes, List.isEmpty_nil, if_true]; exact h fuel hf⟩
  · obtain ⟨n, l, h⟩ := parentLoop_ends (rels := es.rels) (es.entities.map Entity.id) hw.parents _ _ updated [] hup (Nat.le_refl _) (Nat.le_refl _)
    obtain ⟨hnd, hmem⟩ := parentLoop_spec h (updated := updated) (fun e he => .inl he) (fun e he => .here he) (fun e he => by cases he)
      (fun e he => by cases he) List.nodup_nil
    have habove : ∀ e, Above es updated e → e ∈ es.entities.map Entity.id := by
      intro e he
      induction he with
      | here h => exact hup _ h
      | parent _ hr _ _ => exact hw.parents _ hr
    obtain ⟨k, es', hk⟩ := run (order l) ((hord l).nodup_iff.mpr hnd) (fun e he => habove e ((hmem e).mp ((hord l).mem_iff.mp he)))
    refine ⟨max n k, es', fun fuel hf => ?_⟩
    unfold addLastTimeIndexes
    rw [if_neg (by simpa using hu), parentLoop_mono h (by omega)]
    exact hk fuel (by omega)

/-! ### Examples and violations -/

namespace LtiExample

def ent (id index : String) (ti : Option String) (rows : List Row) : Entity :=
  { id := id, index := index, timeIndex := ti, secondary := [], created := none, vars := [], lti := none
    df := { cols := [], rows := rows, dtype := fun _ => "int64" } }

/-- Customers, their sessions, and transactions in sessions. Customer 2 has no session, customer 1 two, with two transactions
in the first and none in the second. -/
def trans : Entity := ent "trans" "tid" (some "t") [Row.ofList [("tid", .num 1), ("sess", .num 11), ("t", .num 50)],
  Row.ofList [("tid", .num 2), ("sess", .num 11), ("t", .num 90)]]
def sessions (ti : Option String) : Entity := ent "sessions" "sid" ti [Row.ofList [("sid", .num 11), ("cust", .num 1), ("t", .num 40)],
  Row.ofList [("sid", .num 12), ("cust", .num 1), ("t", .num 60)]]
def custs : Entity := ent "custs" "id" none [Row.ofList [("id", .num 1)], Row.ofList [("id", .num 2)]]
def rels : List Relationship := [⟨"custs", "id", "sessions", "cust"⟩, ⟨"sessions", "sid", "trans", "sess"⟩]
def es (ti : Option String) : ESet := { entities := [custs, sessions ti, trans], rels := rels, timeType := none, cache := none }

theorem es_wired (ti : Option String) : Wired (es ti) :=
  ⟨by show ["custs", "sessions", "trans"].Nodup; decide, by show ∀ r ∈ rels, r.parentE ∈ ["custs", "sessions", "trans"]; decide,
   by show ∀ r ∈ rels, r.childE ∈ ["custs", "sessions", "trans"]; decide⟩

theorem es_acyclic (ti : Option String) : ChildrenEnd (es ti) :=
  ⟨fun e => if e = "custs" then 2 else if e = "sessions" then 1 else 0, by show ∀ r ∈ rels, _; decide⟩

theorem es_orderly : Orderly (es (some "t")) := by
  refine ⟨by show ∀ r ∈ rels, ∀ r' ∈ rels, _; decide, ?_, ?_⟩
  · intro x hx t ht r hr
    simp only [es, List.mem_cons, List.not_mem_nil, or_false] at hx
    rcases hx with rfl | rfl | rfl
    · cases ht
    · cases ht
      have : r = (sessions (some "t")).df.rows[0]'(by decide) ∨ r = (sessions (some "t")).df.rows[1]'(by decide) := by
        simpa [sessions, ent] using hr
      rcases this with rfl | rfl
      · exact .inr ⟨40, rfl, by decide⟩
      · exact .inr ⟨60, rfl, by decide⟩
    · cases ht
      have : r = trans.df.rows[0]'(by decide) ∨ r = trans.df.rows[1]'(by decide) := by simpa [trans, ent] using hr
      rcases this with rfl | rfl
      · exact .inr ⟨50, rfl, by decide⟩
      · exact .inr ⟨90, rfl, by decide⟩
  · intro rel hrel c hc hid s hs s' hs' _ _
    have hti : c.timeIndex = some "t" := by
      simp only [es, List.mem_cons, List.not_mem_nil, or_false] at hc
      rcases hc with rfl | rfl | rfl
      · simp only [es, rels, List.mem_cons, List.not_mem_nil, or_false] at hrel
        rcases hrel with rfl | rfl <;> exact absurd hid (by decide)
      · rfl
      · rfl
    have hnum : ∃ m, s' "t" = .num m := by
      simp only [es, List.mem_cons, List.not_mem_nil, or_false] at hc
      rcases hc with rfl | rfl | rfl
      · cases hti
      · have : s' = (sessions (some "t")).df.rows[0]'(by decide) ∨ s' = (sessions (some "t")).df.rows[1]'(by decide) := by
          simpa [sessions, ent] using hs'
        rcases this with rfl | rfl
        · exact ⟨40, rfl⟩
        · exact ⟨60, rfl⟩
      · have : s' = trans.df.rows[0]'(by decide) ∨ s' = trans.df.rows[1]'(by decide) := by simpa [trans, ent] using hs'
        rcases this with rfl | rfl
        · exact ⟨50, rfl⟩
        · exact ⟨90, rfl⟩
    obtain ⟨m, hm⟩ := hnum
    exact ⟨m, .own hc hs' hti hm⟩

/-- Flights between airports: two relationships between the same entities. -/
def airports : Entity := ent "airports" "a" none [Row.ofList [("a", .num 1)], Row.ofList [("a", .num 2)]]
def flights : Entity := ent "flights" "f" (some "t") [Row.ofList [("f", .num 7), ("from", .num 1), ("to", .num 2), ("t", .num 50)]]
def esF : ESet := { entities := [airports, flights], timeType := none, cache := none
                    rels := [⟨"airports", "a", "flights", "from"⟩, ⟨"airports", "a", "flights", "to"⟩] }

/-- Two entities that are each other's parent. -/
def esC : ESet := { entities := [ent "a" "i" none [], ent "b" "j" none []], timeType := none, cache := none
                    rels := [⟨"a", "i", "b", "k"⟩, ⟨"b", "j", "a", "l"⟩] }

end LtiExample

open LtiExample in
/-- The hypotheses are met, and the call gives: 90 for customer 1, nothing for customer 2, 90 and 60 for the sessions. -/
example : Wired (es (some "t")) ∧ Orderly (es (some "t")) ∧ ChildrenEnd (es (some "t")) ∧
    (addLastTimeIndexes (es (some "t")) id [] 9).map (fun e => e.entities.map Entity.lti) =
      some [some [(.num 1, .num 90), (.num 2, .null)], some [(.num 11, .num 90), (.num 12, .num 60)], some [(.num 1, .num 50), (.num 2, .num 90)]] :=
  ⟨es_wired _, es_orderly, es_acyclic _, by decide⟩

open LtiExample in
/-- The hypotheses of `C12_updated_partial` are met: no entity has a last time index before; transactions are above
themselves, and all get one. -/
example : (∀ l : List String, (id l).Perm l) ∧
    (∀ x ∈ (es (some "t")).entities, ¬ Above (es (some "t")) ["trans"] x.id → ∀ l, x.lti = some l → LtiOk (es (some "t")) x l) ∧
    (addLastTimeIndexes (es (some "t")) id ["trans"] 9).isSome = true := by
  refine ⟨fun l => .refl l, ?_, by decide⟩
  intro x hx _ l hl
  simp only [es, List.mem_cons, List.not_mem_nil, or_false] at hx
  rcases hx with rfl | rfl | rfl <;> cases hl

open LtiExample in
/-- **C12 is violated** when a child row was never observed: the missing time of session 12 hides the transactions in session
11, so that customer 1, observed last at time 90, has no last time. -/
theorem C12_missing_time_violated :
    (addLastTimeIndexes (es none) id [] 9).map (fun e => (e.get? "custs").bind Entity.lti) = some (some [(.num 1, .null), (.num 2, .null)]) ∧
    (∃ r ∈ custs.df.rows, r "id" = .num 1 ∧ HasTime (es none) "custs" r 90) ∧ Wired (es none) ∧
    (∀ r ∈ (es none).rels, ∀ r' ∈ (es none).rels, r.parentE = r'.parentE → r.childE = r'.childE → r = r') := by
  refine ⟨by decide, ⟨custs.df.rows[0]'(by decide), by simp, rfl, ?_⟩, es_wired _, by show ∀ r ∈ rels, ∀ r' ∈ rels, _; decide⟩
  refine .child (x := custs) (c := sessions none) (rel := ⟨"custs", "id", "sessions", "cust"⟩) (s := (sessions none).df.rows[0]'(by decide))
    (by simp [es]) (by simp) (by simp [es]) (by simp [es, rels]) rfl rfl (by simp) rfl ?_
  refine .child (x := sessions none) (c := trans) (rel := ⟨"sessions", "sid", "trans", "sess"⟩) (s := trans.df.rows[1]'(by decide))
    (by simp [es]) (by simp) (by simp [es]) (by simp [es, rels]) rfl rfl (by simp) rfl ?_
  exact .own (x := trans) (t := "t") (by simp [es]) (by simp) rfl rfl

open LtiExample in
/-- **C12 is violated** by two relationships between the same two entities: only the last one is followed, so that airport 1,
from which a flight left at time 50, has no last time. -/
theorem C12_two_relationships_violated :
    (addLastTimeIndexes esF id [] 9).map (fun e => (e.get? "airports").bind Entity.lti) = some (some [(.num 1, .null), (.num 2, .num 50)]) ∧
    ∃ r ∈ airports.df.rows, r "a" = .num 1 ∧ HasTime esF "airports" r 50 := by
  refine ⟨by decide, airports.df.rows[0]'(by decide), by simp, rfl, ?_⟩
  refine .child (x := airports) (c := flights) (rel := ⟨"airports", "a", "flights", "from"⟩) (s := flights.df.rows[0]'(by decide))
    (by simp [esF]) (by simp) (by simp [esF]) (by simp [esF]) rfl rfl (by simp) rfl ?_
  exact .own (x := flights) (t := "t") (by simp [esF]) (by simp) rfl rfl

open LtiExample in
/-- **C12 is violated** by times up to the year 1800: with a child entity, even without rows, they are lost. -/
theorem C12_before_1800_violated :
    let x := ent "a" "i" (some "t") [Row.ofList [("i", .num 1), ("t", .num (-6000000000000000000))]]
    let es : ESet := { entities := [x, ent "b" "j" none []], rels := [⟨"a", "i", "b", "k"⟩], timeType := none, cache := none }
    (addLastTimeIndexes es id [] 9).map (fun e => (e.get? "a").bind Entity.lti) = some (some [(.num 1, .null)]) ∧
      ∃ r ∈ x.df.rows, HasTime es "a" r (-6000000000000000000) := by
  refine ⟨by decide, Row.ofList [("i", .num 1), ("t", .num (-6000000000000000000))], by simp [ent], ?_⟩
  exact .own (x := ent "a" "i" (some "t") [Row.ofList [("i", .num 1), ("t", .num (-6000000000000000000))]]) (t := "t") (by simp) (by simp [ent]) rfl rfl

open LtiExample in
/-- **C12 is violated** by entities that are each other's parent: the call does not return. -/
theorem C12_cycle_violated (order : List String → List String) : ∀ fuel, addLastTimeIndexes esC order [] fuel = none := by
  have key : ∀ fuel st, st.explored = [] → (st.queue = ["a", "b"] ∨ st.queue = ["b", "a"]) → ltiLoop esC ["a", "b"] fuel st = none := by
    intro fuel
    induction fuel with
    | zero => intro st _ _; rfl
    | succ n ih =>
      intro st he hq
      have hall : (["a", "b"].all fun e => st.explored.contains e) = false := by rw [he]; rfl
      have hga : (esC.get? "a").isSome := by decide
      have hgb : (esC.get? "b").isSome := by decide
      obtain ⟨x, hx⟩ := Option.isSome_iff_exists.mp hga
      obtain ⟨y, hy⟩ := Option.isSome_iff_exists.mp hgb
      have ca : ltiChildren esC.rels "a" = ["b"] := by decide
      have cb : ltiChildren esC.rels "b" = ["a"] := by decide
      rcases hq with hq | hq
      · simp only [ltiLoop, hall, hq, hx]
        exact ih _ (by simp [ltiRound, ca, he]) (.inr (by simp [ltiRound, ca, he, dedup]))
      · simp only [ltiLoop, hall, hq, hy]
        exact ih _ (by simp [ltiRound, cb, he]) (.inl (by simp [ltiRound, cb, he, dedup]))
  intro fuel
  simp only [addLastTimeIndexes, List.isEmpty_nil, if_true, ltiRun]
  have : esC.entities.map Entity.id = ["a", "b"] := by decide
  rw [this, key fuel _ rfl (.inl rfl)]

end FT
