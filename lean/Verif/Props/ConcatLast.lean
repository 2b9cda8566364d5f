import Verif.Lemmas.ConcatLast
import Verif.Props.EntitySetEq
/-! # Properties of last time indexes when data changes: C12, C89 -/
namespace FT
open Spec

/-- **C12.** After updating the last time indexes of some entities, every last time index is right, and the entities that
have one are exactly those that had one, the given ones with their parents and so on, and the children and so on of these. -/
theorem C12_renewed_partial (es es' : ESet) (order : List String → List String) (hord : ∀ l, (order l).Perm l) (updated : List String)
    (hne : updated ≠ []) (fuel : Nat) (hw : Wired es) (ho : Orderly es)
    (hold : ∀ x ∈ es.entities, ¬ Above es updated x.id → ∀ l, x.lti = some l → LtiOk es x l)
    (h : addLastTimeIndexes es order updated fuel = some es') :
    ∃ lti : String → Option (List (Val × Val)), es'.entities = es.entities.map (fun x => { x with lti := lti x.id }) ∧
      (∀ x ∈ es.entities, ∀ l, lti x.id = some l → LtiOk es x l) ∧
      ∀ x ∈ es.entities, (lti x.id ≠ none ↔ Renewed es updated x.id ∨ x.lti ≠ none) := by
  obtain ⟨lti, rfl, h1, h2⟩ := addLast_full hord hne hw ho hold h
  exact ⟨lti, rfl, h1, h2⟩

/-- **C89.** Apart from last time indexes, `concat` leaves what putting the data together leaves. -/
theorem C89_concat_data (lib : Lib) (a b c : ESet) (order : List String → List String) (fuel : Nat) (err : Option PyErr)
    (h : concatLast lib a b order fuel = some (c, err)) :
    ∃ c0, concat lib a b = (c0, err) ∧ c.rels = c0.rels ∧ c.timeType = c0.timeType ∧ (err ≠ none → c = c0) ∧
      (c.entities.map fun z => { z with lti := none }) = c0.entities.map fun z => { z with lti := none } := by
  unfold concatLast at h
  split at h
  · rename_i c0 e hc
    cases h
    exact ⟨c, hc, rfl, rfl, fun _ => rfl, rfl⟩
  · rename_i c0 hc
    obtain ⟨c1, h1, h2⟩ := Option.map_eq_some_iff.mp h
    cases h2
    have key : ∀ q, ltiRun c0 fuel q = some c →
        c.rels = c0.rels ∧ c.timeType = c0.timeType ∧ (c.entities.map fun z => { z with lti := none }) = c0.entities.map fun z => { z with lti := none } := by
      intro q hq
      unfold ltiRun at hq
      split at hq
      · cases hq
      · cases hq
        refine ⟨rfl, rfl, ?_⟩
        simp only [List.map_map]
        exact List.map_congr_left fun z _ => rfl
    have : ∃ q, ltiRun c0 fuel q = some c := by
      unfold addLastTimeIndexes at h1
      split at h1
      · exact ⟨_, h1⟩
      · split at h1
        · cases h1
        · exact ⟨_, h1⟩
    obtain ⟨q, hq⟩ := this
    obtain ⟨k1, k2, k3⟩ := key q hq
    exact ⟨c0, hc, k1, k2, fun h => absurd rfl h, k3⟩

/-- What `concat` does to the last time indexes, whichever entities have one. -/
theorem concatLast_ok {lib : Lib} {a b c : ESet} {order : List String → List String} (hord : ∀ l, (order l).Perm l) {fuel : Nat}
    (hw : Wired a) (ha : Dicts a) (hb : Dicts b) (hi : ∀ x ∈ a.entities, x.index ∈ x.vars.map Var.id)
    (h : concatLast lib a b order fuel = some (c, none)) (ho : Orderly c) :
    (∀ z ∈ c.entities, ∀ l, z.lti = some l → LtiOk c z l) ∧
    ∀ z ∈ c.entities, (z.lti ≠ none ↔ (∀ e, ¬ TimedIn a b e) ∨ ∃ e, TimedIn a b e ∧ Renewed c [e] z.id) := by
  unfold concatLast at h
  split at h
  · cases h
  · rename_i c0 hc
    obtain ⟨c1, h1, h2⟩ := Option.map_eq_some_iff.mp h
    cases h2
    obtain ⟨hlti, hrels, hsame⟩ := concat_ltis ha hb hi hc
    have hids : c0.entities.map Entity.id = a.entities.map Entity.id := by
      have := congrArg (List.map Prod.fst) hlti
      simpa [List.map_map, Function.comp_def] using this
    have hw0 : Wired c0 := ⟨hids ▸ hw.ids, by rw [hids, hrels]; exact hw.parents, by rw [hids, hrels]; exact hw.children⟩
    have hmem : ∀ e, e ∈ hasLast a b ↔ TimedIn a b e := fun e => mem_hasLast hb.ids (fun y hy => (hsame.1 y.id).mpr (List.mem_map_of_mem hy)) e
    have back : ∀ z ∈ c0.entities, z.lti ≠ none → z.id ∈ hasLast a b := by
      intro z hz hl
      have : (z.id, z.lti) ∈ a.entities.map fun x => (x.id, x.lti) := by rw [← hlti]; exact List.mem_map.mpr ⟨z, hz, rfl⟩
      obtain ⟨x, hx, he⟩ := List.mem_map.mp this
      rw [Prod.mk.injEq] at he
      exact (hmem _).mpr (.inl ⟨x, hx, he.1, by rw [he.2]; exact hl⟩)
    by_cases hne : hasLast a b = []
    · rw [hne] at h1
      have hno : ∀ e, ¬ TimedIn a b e := fun e he => by have := (hmem e).mpr he; rw [hne] at this; cases this
      simp only [addLastTimeIndexes, List.isEmpty_nil, if_true] at h1
      have hshape : ∃ f : String → Option Lti, c = { c0 with entities := c0.entities.map fun x => { x with lti := f x.id }, cache := none } := by
        unfold ltiRun at h1
        split at h1
        · cases h1
        · rename_i st _; cases h1; exact ⟨st.lti, rfl⟩
      obtain ⟨f, hf⟩ := hshape
      obtain ⟨w1, w2⟩ := within_lti c0 f (tt := c0.timeType) (cache := none)
      rw [← hf] at w1 w2
      obtain ⟨lti, rfl, k1, k2⟩ := ltiRun_full hw0 (orderly_within w2 w1 ho) (fun x hx hn => absurd (List.mem_map_of_mem hx) hn) h1
      refine ⟨fun z hz l hl => ?_, fun z hz => ?_⟩
      · obtain ⟨x, hx, rfl⟩ := List.mem_map.mp hz
        exact ltiOk_within (x := x) (y := { x with lti := lti x.id }) w1 w2 rfl rfl rfl (k1 x hx l hl)
      · obtain ⟨x, hx, rfl⟩ := List.mem_map.mp hz
        exact iff_of_true ((k2 x hx).mpr (.inl (.here (List.mem_map_of_mem hx)))) (.inl hno)
    · have hsome : ∃ e, TimedIn a b e := by
        obtain ⟨e, he⟩ := List.exists_mem_of_ne_nil _ hne
        exact ⟨e, (hmem e).mp he⟩
      have hshape : ∃ f : String → Option Lti, c = { c0 with entities := c0.entities.map fun x => { x with lti := f x.id }, cache := none } := by
        unfold addLastTimeIndexes at h1
        rw [if_neg (by simpa using hne)] at h1
        split at h1
        · cases h1
        · unfold ltiRun at h1
          split at h1
          · cases h1
          · rename_i st _; cases h1; exact ⟨st.lti, rfl⟩
      obtain ⟨f, hf⟩ := hshape
      obtain ⟨w1, w2⟩ := within_lti c0 f (tt := c0.timeType) (cache := none)
      rw [← hf] at w1 w2
      have hr' : c.rels = c0.rels := by rw [hf]
      obtain ⟨lti, rfl, k1, k2⟩ := addLast_full hord hne hw0 (orderly_within w2 w1 ho)
        (fun x hx hn l hl => absurd (.here (back x hx (by rw [hl]; simp))) hn) h1
      refine ⟨fun z hz l hl => ?_, fun z hz => ?_⟩
      · obtain ⟨x, hx, rfl⟩ := List.mem_map.mp hz
        exact ltiOk_within (x := x) (y := { x with lti := lti x.id }) w1 w2 rfl rfl rfl (k1 x hx l hl)
      · obtain ⟨x, hx, rfl⟩ := List.mem_map.mp hz
        refine (k2 x hx).trans ⟨fun hk => .inr ?_, fun hk => .inl ?_⟩
        · rcases hk with hk | hk
          · obtain ⟨u, hu, hk⟩ := renewed_single.mp hk
            exact ⟨u, (hmem u).mp hu, (renewed_rels hr').mpr hk⟩
          · exact ⟨x.id, (hmem _).mp (back x hx hk), .above (.here (by simp))⟩
        · rcases hk with hk | ⟨u, hu, hk⟩
          · obtain ⟨e, he⟩ := hsome; exact absurd he (hk e)
          · exact renewed_single.mpr ⟨u, (hmem u).mpr hu, (renewed_rels hr').mp hk⟩

/-- **C89.** After concatenating entity sets, of which an entity has a last time index in one or the other, every last time
index is right; entities with one are exactly those with one before in either entity set, their parents and so on, and the
children and so on of all these. Missing: the conditions of `Orderly`, see C12. -/
theorem C89_concat_partial (lib : Lib) (a b c : ESet) (order : List String → List String) (hord : ∀ l, (order l).Perm l) (fuel : Nat)
    (hw : Wired a) (ha : Dicts a) (hb : Dicts b) (hi : ∀ x ∈ a.entities, x.index ∈ x.vars.map Var.id)
    (h : concatLast lib a b order fuel = some (c, none)) (ho : Orderly c) (hs : ∃ e, TimedIn a b e) :
    (∀ z ∈ c.entities, ∀ l, z.lti = some l → LtiOk c z l) ∧
    ∀ z ∈ c.entities, (z.lti ≠ none ↔ ∃ e, TimedIn a b e ∧ Renewed c [e] z.id) := by
  obtain ⟨h1, h2⟩ := concatLast_ok hord hw ha hb hi h ho
  refine ⟨h1, fun z hz => (h2 z hz).trans ⟨?_, .inr⟩⟩
  rintro (hn | h)
  · obtain ⟨e, he⟩ := hs; exact absurd he (hn e)
  · exact h

/-- **C89.** Concatenating entity sets without last time indexes gives every entity one, a right one: a list of no entities
to update counts as all of them. -/
theorem C89_concat_new_partial (lib : Lib) (a b c : ESet) (order : List String → List String) (hord : ∀ l, (order l).Perm l) (fuel : Nat)
    (hw : Wired a) (ha : Dicts a) (hb : Dicts b) (hi : ∀ x ∈ a.entities, x.index ∈ x.vars.map Var.id)
    (h : concatLast lib a b order fuel = some (c, none)) (ho : Orderly c)
    (hx : ∀ x ∈ a.entities, x.lti = none) (hy : ∀ y ∈ b.entities, y.lti = none) : ∀ z ∈ c.entities, ∃ l, z.lti = some l ∧ LtiOk c z l := by
  obtain ⟨h1, h2⟩ := concatLast_ok hord hw ha hb hi h ho
  intro z hz
  obtain ⟨l, hl⟩ := Option.ne_none_iff_exists'.mp ((h2 z hz).mpr (.inl fun e he => by
    rcases he with ⟨x, hx', _, hn⟩ | ⟨y, hy', _, hn⟩
    · exact hn (hx x hx')
    · exact hn (hy y hy')))
  exact ⟨l, hl, h1 z hz l hl⟩

/-- **C89.** Concatenating entity sets returns when following relationships from parents to children ends. -/
theorem C89_concat_terminates (lib : Lib) (a b : ESet) (order : List String → List String) (hord : ∀ l, (order l).Perm l)
    (hw : Wired a) (ha : Dicts a) (hb : Dicts b) (hi : ∀ x ∈ a.entities, x.index ∈ x.vars.map Var.id) (he : ChildrenEnd a) :
    ∃ n c, ∀ fuel, n ≤ fuel → concatLast lib a b order fuel = some (c, (concat lib a b).2) := by
  rcases hc : concat lib a b with ⟨c0, err⟩
  cases err with
  | some e => exact ⟨0, c0, fun fuel _ => by unfold concatLast; rw [hc]⟩
  | none =>
    obtain ⟨hlti, hrels, hsame⟩ := concat_ltis ha hb hi hc
    have hids : c0.entities.map Entity.id = a.entities.map Entity.id := by
      have := congrArg (List.map Prod.fst) hlti
      simpa [List.map_map, Function.comp_def] using this
    have hw0 : Wired c0 := ⟨hids ▸ hw.ids, by rw [hids, hrels]; exact hw.parents, by rw [hids, hrels]; exact hw.children⟩
    obtain ⟨rank, hr⟩ := he
    obtain ⟨n, c, h⟩ := C12_terminates c0 order hord (hasLast a b) (by
      intro e he
      obtain ⟨x, hx, rfl⟩ := List.mem_map.mp he
      rw [hids]
      exact List.mem_map_of_mem (List.mem_filter.mp hx).1) hw0 ⟨rank, by rw [hrels]; exact hr⟩
    refine ⟨n, c, fun fuel hf => ?_⟩
    unfold concatLast
    rw [hc]
    simp only [h fuel hf, Option.map_some]

/-- **C89.** Replacing the data of an entity with a last time index, in an entity set in which all last time indexes are
right, leaves all of them right; entities with one are those that had one, the parents and so on of the entity, and the
children and so on of these. Missing: the conditions of `Orderly`; entities without a last time index, see
`C89_update_stale_violated`. -/
theorem C89_update_partial (lib : Lib) (es es' : ESet) (e : String) (x : Entity) (df : DataFrame) (sorted : Bool) (order : List String → List String)
    (hord : ∀ l, (order l).Perm l) (fuel : Nat) (hw : Wired es) (hx : es.get? e = some x) (hi : x.index ∈ x.vars.map Var.id)
    (hold : ∀ y ∈ es.entities, ∀ l, y.lti = some l → LtiOk es y l) (hl : x.lti ≠ none)
    (h : updateDataLast lib es e df sorted order fuel = some (es', none)) (ho : Orderly es') :
    (∀ z ∈ es'.entities, ∀ l, z.lti = some l → LtiOk es' z l) ∧
    ∀ z ∈ es'.entities, (z.lti ≠ none ↔ Renewed es' [e] z.id ∨ ∃ y ∈ es.entities, y.id = z.id ∧ y.lti ≠ none) := by
  unfold updateDataLast at h
  split at h
  · cases h
  · rename_i es1 h0
    obtain ⟨hlti, hrels⟩ := update_ltis hx hw.ids hi h0
    have hids : es1.entities.map Entity.id = es.entities.map Entity.id := by
      have := congrArg (List.map Prod.fst) hlti
      simpa [List.map_map, Function.comp_def] using this
    have hw1 : Wired es1 := ⟨hids ▸ hw.ids, by rw [hids, hrels]; exact hw.parents, by rw [hids, hrels]; exact hw.children⟩
    obtain ⟨z, _, _, _, _, _, _, _, hoth, _⟩ := update_ok hx h0
    have hab : OnlyAt e es es1 := ⟨hrels.symm, fun y hy hne => (get?_mem ((hoth y.id hne).trans (get?_of_mem hw.ids hy))).1⟩
    have hba : OnlyAt e es1 es := ⟨hrels, fun y hy hne => (get?_mem ((hoth y.id hne).symm.trans (get?_of_mem hw1.ids hy))).1⟩
    have pair : ∀ y ∈ es1.entities, (∃ w ∈ es.entities, w.id = y.id ∧ w.lti = y.lti) := by
      intro y hy
      have : (y.id, y.lti) ∈ es.entities.map fun x => (x.id, x.lti) := by rw [← hlti]; exact List.mem_map.mpr ⟨y, hy, rfl⟩
      obtain ⟨w, hw', he⟩ := List.mem_map.mp this
      rw [Prod.mk.injEq] at he
      exact ⟨w, hw', he.1, he.2⟩
    have hsome : ((es1.get? e).bind Entity.lti).isSome = true := by
      have : (x.id, x.lti) ∈ es1.entities.map fun x => (x.id, x.lti) := by rw [hlti]; exact List.mem_map.mpr ⟨x, (get?_mem hx).1, rfl⟩
      obtain ⟨w, hw', he⟩ := List.mem_map.mp this
      rw [Prod.mk.injEq] at he
      rw [← (get?_mem hx).2, ← he.1, get?_of_mem hw1.ids hw', Option.bind_some, he.2]
      exact Option.isSome_iff_ne_none.mpr hl
    rw [if_pos hsome] at h
    obtain ⟨c1, h1, h2⟩ := Option.map_eq_some_iff.mp h
    cases h2
    have hshape : ∃ f : String → Option Lti, es' = { es1 with entities := es1.entities.map fun x => { x with lti := f x.id }, cache := none } := by
      have h1' := h1
      unfold addLastTimeIndexes at h1'
      rw [if_neg (by simp)] at h1'
      split at h1'
      · cases h1'
      · unfold ltiRun at h1'
        split at h1'
        · cases h1'
        · rename_i st _; cases h1'; exact ⟨st.lti, rfl⟩
    obtain ⟨f, hf⟩ := hshape
    obtain ⟨w1, w2⟩ := within_lti es1 f (tt := es1.timeType) (cache := none)
    rw [← hf] at w1 w2
    have hr' : es'.rels = es1.rels := by rw [hf]
    obtain ⟨lti, rfl, k1, k2⟩ := addLast_full hord (by simp) hw1 (orderly_within w2 w1 ho) (fun y hy hn l hl => by
      have hne : y.id ≠ e := fun he => hn (.here (by simp [he]))
      have hy0 := hba.others y hy hne
      exact ltiOk_onlyAt hab hba (fun ha => hn ((above_rels hrels.symm).mp ha)) (hold y hy0 l hl)) h1
    refine ⟨fun z hz l hl => ?_, fun z hz => ?_⟩
    · obtain ⟨y, hy, rfl⟩ := List.mem_map.mp hz
      exact ltiOk_within (x := y) (y := { y with lti := lti y.id }) w1 w2 rfl rfl rfl (k1 y hy l hl)
    · obtain ⟨y, hy, rfl⟩ := List.mem_map.mp hz
      refine (k2 y hy).trans ⟨fun hk => ?_, fun hk => ?_⟩
      · rcases hk with hk | hk
        · exact .inl ((renewed_rels hr').mpr hk)
        · obtain ⟨w, hw', h1, h2⟩ := pair y hy
          exact .inr ⟨w, hw', h1, by rw [h2]; exact hk⟩
      · rcases hk with hk | ⟨w, hw', hwi, hwl⟩
        · exact .inl ((renewed_rels hr').mp hk)
        · obtain ⟨w', hw'', h1, h2⟩ := pair y hy
          have : w' = w := by
            have g1 := get?_of_mem hw.ids hw''
            have g2 := get?_of_mem hw.ids hw'
            rw [h1.trans hwi.symm, g2] at g1
            exact (Option.some.inj g1).symm
          refine .inr ?_
          rw [← h2, this]
          exact hwl

/-- **C89.** Replacing the data of an entity without a last time index changes no last time index; they stay right if no
parent of the entity, parent of a parent and so on has one. -/
theorem C89_update_untimed (lib : Lib) (es es' : ESet) (e : String) (x : Entity) (df : DataFrame) (sorted : Bool) (order : List String → List String)
    (fuel : Nat) (hw : Wired es) (hx : es.get? e = some x) (hi : x.index ∈ x.vars.map Var.id)
    (hold : ∀ y ∈ es.entities, ∀ l, y.lti = some l → LtiOk es y l) (hl : x.lti = none)
    (h : updateDataLast lib es e df sorted order fuel = some (es', none)) :
    (es'.entities.map fun z => (z.id, z.lti)) = es.entities.map (fun z => (z.id, z.lti)) ∧
    ((∀ y ∈ es.entities, Above es [e] y.id → y.lti = none) → ∀ z ∈ es'.entities, ∀ l, z.lti = some l → LtiOk es' z l) := by
  unfold updateDataLast at h
  split at h
  · cases h
  · rename_i es1 h0
    obtain ⟨hlti, hrels⟩ := update_ltis hx hw.ids hi h0
    have hids : es1.entities.map Entity.id = es.entities.map Entity.id := by
      have := congrArg (List.map Prod.fst) hlti
      simpa [List.map_map, Function.comp_def] using this
    have hn1 : (es1.entities.map Entity.id).Nodup := hids ▸ hw.ids
    obtain ⟨z, _, _, _, _, _, _, _, hoth, _⟩ := update_ok hx h0
    have hab : OnlyAt e es es1 := ⟨hrels.symm, fun y hy hne => (get?_mem ((hoth y.id hne).trans (get?_of_mem hw.ids hy))).1⟩
    have hba : OnlyAt e es1 es := ⟨hrels, fun y hy hne => (get?_mem ((hoth y.id hne).symm.trans (get?_of_mem hn1 hy))).1⟩
    have pair : ∀ y ∈ es1.entities, (∃ w ∈ es.entities, w.id = y.id ∧ w.lti = y.lti) := by
      intro y hy
      have : (y.id, y.lti) ∈ es.entities.map fun x => (x.id, x.lti) := by rw [← hlti]; exact List.mem_map.mpr ⟨y, hy, rfl⟩
      obtain ⟨w, hw', he⟩ := List.mem_map.mp this
      rw [Prod.mk.injEq] at he
      exact ⟨w, hw', he.1, he.2⟩
    have hnone : ((es1.get? e).bind Entity.lti).isSome = false := by
      have : (x.id, x.lti) ∈ es1.entities.map fun x => (x.id, x.lti) := by rw [hlti]; exact List.mem_map.mpr ⟨x, (get?_mem hx).1, rfl⟩
      obtain ⟨w, hw', he⟩ := List.mem_map.mp this
      rw [Prod.mk.injEq] at he
      rw [← (get?_mem hx).2, ← he.1, get?_of_mem hn1 hw', Option.bind_some, he.2, hl]
      rfl
    rw [hnone] at h
    cases h
    refine ⟨hlti, fun hab' y hy l hly => ?_⟩
    obtain ⟨w, hw', g1, g2⟩ := pair y hy
    have hna : ¬ Above es [e] y.id := fun ha => by
      have := hab' w hw' (g1 ▸ ha)
      rw [g2, hly] at this
      cases this
    have hy0 := hba.others y hy fun he => hna (.here (by simp [he]))
    exact ltiOk_onlyAt hab hba hna (hold y hy0 l hly)

/-! ### Examples and violations -/

namespace LastExample
open EsExample

def newRows : List Row := [Row.ofList [("oid", .num 9), ("cust", .num 8), ("city", .str "x"), ("t", .num 70), ("n", .num 1)]]
/-- The entity set of the example with last time indexes, and more data. -/
def timed : ESet := (addLastTimeIndexes es3 id [] 9).getD ESet.empty
def more : ESet := es3.modify "orders" fun x => { x with df := { x.df with rows := newRows } }
def joined : ESet := ((concatLast lib timed more id 9).getD (ESet.empty, none)).1
def replaced : ESet := ((updateDataLast lib timed "orders" { orders with rows := newRows } false id 9).getD (ESet.empty, none)).1
/-- The customers get last time indexes, and then there are orders, none so far. -/
def early : ESet :=
  let es := (entityFromDataframe lib ESet.empty { id := "custs", df := custs, index := some "id" }).1
  let es := (addLastTimeIndexes es id [] 9).getD ESet.empty
  let es := (entityFromDataframe lib es { id := "orders", df := { orders with rows := [] }, index := some "oid", timeIndex := some "t" }).1
  (addRelationship lib es rel).1

/-- A check that implies `Orderly`: at most one relationship between entities, children have times. -/
def check (es : ESet) : Bool :=
  es.rels.all (fun r => es.rels.all fun r' => r.parentE != r'.parentE || r.childE != r'.childE || r == r') &&
  es.entities.all (fun x => match x.timeIndex with
    | none => es.rels.all fun r => r.childE != x.id
    | some t => x.df.rows.all fun r => match r t with
      | .num m => decide (-5364662400000000000 < m)
      | _ => false)

theorem orderly_check {es : ESet} (h : check es = true) : Orderly es := by
  simp only [check, Bool.and_eq_true, List.all_eq_true, Bool.or_eq_true, bne_iff_ne, ne_eq, beq_iff_eq] at h
  have ht : ∀ x ∈ es.entities, ∀ t, x.timeIndex = some t → ∀ r ∈ x.df.rows, ∃ m, r t = .num m ∧ -5364662400000000000 < m := by
    intro x hx t ht r hr
    have := h.2 x hx
    rw [ht] at this
    simp only [List.all_eq_true] at this
    have := this r hr
    split at this
    · rename_i m hm; exact ⟨m, hm, by simpa using this⟩
    · cases this
  refine ⟨fun r hr r' hr' h1 h2 => ?_, fun x hx t hti r hr => .inr (ht x hx t hti r hr), fun rel hrel c hc hid s hs s' hs' _ _ => ?_⟩
  · rcases h.1 r hr r' hr' with (h' | h') | h'
    · exact absurd h1 h'
    · exact absurd h2 h'
    · exact h'
  · have := h.2 c hc
    cases hti : c.timeIndex with
    | none =>
      rw [hti] at this
      simp only [List.all_eq_true, bne_iff_ne, ne_eq] at this
      exact absurd hid.symm (this rel hrel)
    | some t =>
      obtain ⟨m, hm, _⟩ := ht c hc t hti s' hs'
      exact ⟨m, .own hc hs' hti hm⟩

theorem dicts_check {es : ESet} (h : (es.entities.map Entity.id).Nodup) (h' : (es.entities.all fun x => decide (x.secondary.map Prod.fst).Nodup) = true) :
    Dicts es := ⟨h, fun x hx => by simpa using List.all_eq_true.mp h' x hx⟩

/-- The orders of `early` replaced. -/
def stale : ESet := ((updateDataLast lib early "orders" { orders with rows := newRows } false id 9).getD (ESet.empty, none)).1

end LastExample

open LastExample EsExample in
/-- The hypotheses are met. Customer 8 is last seen at time 70 after concatenating, whether or not there were last time
indexes, and when the orders are replaced; then customer 7 is never seen. -/
example : Wired timed ∧ Dicts timed ∧ Dicts more ∧ Orderly joined ∧ Orderly replaced ∧ (∃ e, TimedIn timed more e) ∧
    (∀ x ∈ timed.entities, x.index ∈ x.vars.map Var.id) ∧
    concatLast lib timed more id 9 = some (joined, none) ∧ (joined.get? "custs").bind Entity.lti = some [(.num 7, .num 30), (.num 8, .num 70)] ∧
    (concatLast lib es3 more id 9).map (fun c => (c.1.get? "custs").bind Entity.lti) = some (some [(.num 7, .num 30), (.num 8, .num 70)]) ∧
    updateDataLast lib timed "orders" { orders with rows := newRows } false id 9 = some (replaced, none) ∧
    (replaced.get? "custs").bind Entity.lti = some [(.num 7, .null), (.num 8, .num 70)] := by
  refine ⟨⟨by decide, by decide, by decide⟩, dicts_check (by decide) (by decide), dicts_check (by decide) (by decide), orderly_check (by decide), orderly_check (by decide), ⟨"orders", .inl ?_⟩, ?_, rfl, by decide, by decide, rfl, by decide⟩
  · obtain ⟨x, hx⟩ := Option.isSome_iff_exists.mp (show (timed.get? "orders").isSome from by decide)
    refine ⟨x, (get?_mem hx).1, (get?_mem hx).2, fun hn => ?_⟩
    have : ((timed.get? "orders").bind Entity.lti).isSome = true := by decide
    rw [hx, Option.bind_some, hn] at this
    cases this
  · have : (timed.entities.all fun x => decide (x.index ∈ x.vars.map Var.id)) = true := by decide
    exact fun x hx => by simpa using List.all_eq_true.mp this x hx

open LastExample EsExample in
/-- **C89 is violated** for an entity without last time index whose parents have one: all last time indexes are right, the
data of the orders is replaced, and then customer 8 has an order at time 70 and no last time. -/
theorem C89_update_stale_violated :
    (∀ y ∈ early.entities, ∀ l, y.lti = some l → LtiOk early y l) ∧
    ∃ es', updateDataLast lib early "orders" { orders with rows := newRows } false id 9 = some (es', none) ∧
      ∃ z ∈ es'.entities, z.lti = some [(.num 7, .null), (.num 8, .null)] ∧ ∃ r ∈ z.df.rows, r "id" = .num 8 ∧ HasTime es' z.id r 70 := by
  have hno : ∀ e r m, ¬ HasTime early e r m := by
    intro e r m h
    have h1 : (early.entities.all fun x => x.timeIndex == none || x.df.rows.isEmpty) = true := by decide
    induction h with
    | own hx hr ht hm =>
      have := List.all_eq_true.mp h1 _ hx
      rw [ht] at this
      simp only [Bool.or_eq_true, beq_iff_eq, reduceCtorEq, List.isEmpty_iff, false_or] at this
      rw [this] at hr
      cases hr
    | child _ _ _ _ _ _ _ _ _ ih => exact ih
  refine ⟨fun y hy l hl => ?_, stale, rfl, ?_⟩
  · have h1 : (early.entities.all fun x => x.lti == none || x.lti == some (x.df.rows.map fun r => (r x.index, .null))) = true := by decide
    have := List.all_eq_true.mp h1 y hy
    rw [hl] at this
    simp only [Bool.or_eq_true, beq_iff_eq, reduceCtorEq, Option.some.injEq, false_or] at this
    exact ⟨fun _ => .null, this, fun r _ m => hno _ _ _⟩
  · refine ⟨stale.entities[0]'(by decide), List.getElem_mem _, by decide, (stale.entities[0]'(by decide)).df.rows[1]'(by decide), List.getElem_mem _, by decide, ?_⟩
    refine .child (c := stale.entities[1]'(by decide)) (rel := rel) (s := (stale.entities[1]'(by decide)).df.rows[0]'(by decide)) (List.getElem_mem _)
      (List.getElem_mem _) (List.getElem_mem _) (by decide) (by decide) (by decide) (List.getElem_mem _) (by decide) ?_
    exact .own (x := stale.entities[1]'(by decide)) (t := "t") (List.getElem_mem _) (List.getElem_mem _) (by decide) (by decide)

end FT
