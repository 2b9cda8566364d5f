import Verif.Lemmas.Serialize
import Verif.Props.EntitySetEq
import Verif.Props.LastTime
/-! # C15: writing an entity set and reading it back -/
namespace FT
open Spec

/-- **C15.** An entity set that is described and read back, with the frames that were written, is the same to its users:
reading succeeds, the entities have the same ids, indexes, time indexes, data and variables, with types, descriptions and
interesting values, the relationships are the same in the same order, the description is the same, and the two compare equal.
If last time indexes are computed as documented, they are the same as well. Missing: entity sets that are not `Describable`,
see the violations below. -/
theorem C15_round_trip_partial (lib : Lib) (json : Json) (time : TimeType) (es : ESet) (h : Describable lib json time es) (hd : Dicts es)
    (frames : String → DataFrame) (hf : ∀ x ∈ es.entities, frames x.id = x.df) (order : List String → List String)
    (hord : ∀ l, (order l).Perm l) (hend : (∃ x ∈ es.entities, x.lti ≠ none) → ChildrenEnd es) :
    ∃ n es', (∀ fuel, n ≤ fuel → rebuild lib json order fuel (describe es) frames = some (es', none)) ∧
      es'.rels = es.rels ∧ es'.entities.length = es.entities.length ∧
      (∀ x ∈ es.entities, ∃ y, es'.get? x.id = some y ∧ ReadBack x y) ∧
      describe es' = describe es ∧ esEq false es es' = true ∧ esEq false es' es = true ∧
      (Orderly es → (∀ x ∈ es.entities, ∀ l, x.lti = some l → LtiOk es x l) → ∀ x ∈ es.entities, ∃ y, es'.get? x.id = some y ∧ y.lti = x.lti) := by
  obtain ⟨tt, ys, hc, h1, h2⟩ := rebuild_parts h hf
  have hids : ((byId es.entities).map Entity.id).Nodup := ((isort_perm _ es.entities).map Entity.id).nodup_iff.mpr h.schema.ids
  have hyids : (ys.map Entity.id).Nodup := hc.ids ▸ hids
  have hlen : ys.length = es.entities.length := by
    have := congrArg List.length hc.ids
    simp only [List.length_map] at this
    rw [this]
    exact (isort_perm _ es.entities).length_eq
  obtain ⟨hab, hba⟩ := hc.within (tt := tt)
  -- the last time indexes
  have key : ∃ (n : Nat) (f : String → Option Lti), (∀ fuel, n ≤ fuel → rebuild lib json order fuel (describe es) frames =
        some ({ entities := ys.map fun y => { y with lti := f y.id }, rels := es.rels, timeType := tt, cache := none }, none)) ∧
      (∀ x ∈ byId es.entities, (f x.id).isSome = x.lti.isSome) ∧
      (Orderly es → (∀ x ∈ es.entities, ∀ l, x.lti = some l → LtiOk es x l) → ∀ x ∈ es.entities, f x.id = x.lti) := by
    have hrun : ∀ fuel, rebuild lib json order fuel (describe es) frames =
        (let updated := ((describe es).entities.filter fun x => x.hasLti).map fun x => x.id
        if updated.isEmpty then some ({ entities := ys, rels := es.rels, timeType := tt, cache := none }, none)
        else match addLastTimeIndexes { entities := ys, rels := es.rels, timeType := tt, cache := none } order updated fuel with
          | some es => some (es, none)
          | none => none) := by
      intro fuel
      unfold rebuild
      rw [h1]
      simp only
      have : (describe es).relationships = es.rels := rfl
      rw [this, h2]
      rfl
    rcases h.lti with hnone | hsome
    · refine ⟨0, fun _ => none, fun fuel _ => ?_, fun x hx => by rw [hnone x (mem_byId.mp hx)], fun _ _ x hx => (hnone x hx).symm⟩
      rw [hrun]
      have : ((describe es).entities.filter fun x => x.hasLti) = [] := by
        rw [describe_byId, List.filter_eq_nil_iff]
        intro d hd
        obtain ⟨x, hx, rfl⟩ := List.mem_map.mp hd
        simp [describeEntity, hnone x (mem_byId.mp hx)]
      simp only [this, List.map_nil, List.isEmpty_nil, if_true]
      congr 3
      conv => lhs; rw [← List.map_id ys]
      apply List.map_congr_left
      intro y hy
      obtain ⟨x, _, hxy⟩ := hc.mem_right hy
      have := hxy.lti
      cases y
      simp only at this
      subst this
      rfl
    · cases hemp : byId es.entities with
      | nil =>
        rw [hemp] at hc
        cases hc
        have he : es.entities = [] := by
          have := (isort_perm (fun a b : Entity => decide (a.id ≤ b.id)) es.entities).length_eq
          unfold byId at hemp
          rw [hemp] at this
          exact List.eq_nil_of_length_eq_zero this.symm
        refine ⟨0, fun _ => none, fun fuel _ => ?_, fun x hx => (by cases hx), fun _ _ x hx => (by rw [he] at hx; cases hx)⟩
        rw [hrun, describe_byId, hemp]
        rfl
      | cons x0 xs0 =>
        have hx0 : x0 ∈ es.entities := mem_byId.mp (by rw [hemp]; exact List.mem_cons_self ..)
        have hup : (((describe es).entities.filter fun x => x.hasLti).map fun x => x.id) = (byId es.entities).map Entity.id := by
          rw [describe_byId, List.filter_eq_self.mpr, List.map_map]
          · rfl
          · intro d hd
            obtain ⟨x, hx, rfl⟩ := List.mem_map.mp hd
            have := hsome x (mem_byId.mp hx)
            simp only [describeEntity]
            cases hl : x.lti with
            | none => exact absurd hl this
            | some _ => rfl
        have hne : (byId es.entities).map Entity.id ≠ [] := by rw [hemp]; simp
        have hw : Wired { entities := ys, rels := es.rels, timeType := tt, cache := none } := by
          have hmem : ∀ x ∈ es.entities, x.id ∈ ys.map Entity.id := by
            intro x hx
            rw [hc.ids]
            exact List.mem_map_of_mem (mem_byId.mpr hx)
          refine ⟨hyids, fun r hr => ?_, fun r hr => ?_⟩
          · obtain ⟨p, hp, c, hcm, hpe, hce, _⟩ := h.schema.linked r hr
            exact hpe ▸ hmem p hp
          · obtain ⟨p, hp, c, hcm, hpe, hce, _⟩ := h.schema.linked r hr
            exact hce ▸ hmem c hcm
        have hce : ChildrenEnd { entities := ys, rels := es.rels, timeType := tt, cache := none } := hend ⟨x0, hx0, hsome x0 hx0⟩
        obtain ⟨n, es', hn⟩ := C12_terminates { entities := ys, rels := es.rels, timeType := tt, cache := none } order hord
          ((byId es.entities).map Entity.id) (fun e he => by rw [← hc.ids] at he; exact he) hw hce
        obtain ⟨f, rfl, hfs⟩ := addLastTimeIndexes_some hord hne (hn n (Nat.le_refl _))
        refine ⟨n, f, fun fuel hfuel => ?_, fun x hx => ?_, fun ho hok x hx => ?_⟩
        · rw [hrun, hup]
          simp only
          rw [if_neg (by simpa using hne), hn fuel hfuel]
        · rw [← hemp] at hx
          rw [hfs x.id (List.mem_map_of_mem hx)]
          cases hl : x.lti with
          | none => exact absurd hl (hsome x (mem_byId.mp hx))
          | some _ => rfl
        · obtain ⟨g, hg, hg1, _⟩ := C12_updated_partial _ _ order hord _ hne n hw (orderly_within hab hba ho)
            (fun y hy hna => absurd (.here (by
              rw [← hc.ids]; exact List.mem_map_of_mem hy)) hna) (hn n (Nat.le_refl _))
          obtain ⟨y, hy, hxy⟩ := hc.mem_left (mem_byId.mpr hx)
          obtain ⟨l, hl, hlok⟩ := hg1 y hy (.here (by rw [← hc.ids]; exact List.mem_map_of_mem hy))
          have hfg : f y.id = g y.id := by
            have := congrArg (List.map fun z : Entity => (z.id, z.lti)) hg
            simp only [List.map_map] at this
            have := List.map_inj_left.mp this y hy
            simpa using this
          rw [hxy.id] at hfg hl
          rw [hfg, hl]
          cases hxl : x.lti with
          | none => exact absurd hxl (hsome x hx)
          | some l' =>
            rw [ltiOk_unique hlok (ltiOk_within hab hba hxy.id hxy.index hxy.df (hok x hx l' hxl))]
  obtain ⟨n, f, hr, hfs, hlti⟩ := key
  have hzids : ((ys.map fun y => { y with lti := f y.id } : List Entity).map Entity.id) = ys.map Entity.id := by
    rw [List.map_map]; rfl
  have hget : ∀ x ∈ es.entities, ∃ y, CopyOf x y ∧ ESet.get? { entities := ys.map fun y => { y with lti := f y.id }, rels := es.rels, timeType := tt, cache := none } x.id =
      some { y with lti := f x.id } := by
    intro x hx
    obtain ⟨y, hy, hxy⟩ := hc.mem_left (mem_byId.mpr hx)
    refine ⟨y, hxy, ?_⟩
    have := get?_of_mem (es := { entities := ys.map fun y => { y with lti := f y.id }, rels := es.rels, timeType := tt, cache := none })
      (x := { y with lti := f y.id }) (by rw [hzids]; exact hyids) (List.mem_map_of_mem hy)
    rw [← hxy.id]
    exact this
  have hrb : ∀ x ∈ es.entities, ∃ y, ESet.get? { entities := ys.map fun y => { y with lti := f y.id }, rels := es.rels, timeType := tt, cache := none } x.id =
      some y ∧ ReadBack x y := by
    intro x hx
    obtain ⟨y, hxy, hg⟩ := hget x hx
    exact ⟨_, hg, hxy.readBack (hfs x (mem_byId.mpr hx))⟩
  have hsame : ∀ x ∈ es.entities, ∀ z ∈ (ys.map fun y => { y with lti := f y.id } : List Entity), x.id = z.id → SameEntity x z := by
    intro x hx z hz he
    obtain ⟨y, hy, hrb⟩ := hrb x hx
    have := get?_of_mem (es := { entities := ys.map fun y => { y with lti := f y.id }, rels := es.rels, timeType := tt, cache := none }) (by rw [hzids]; exact hyids) hz
    rw [← he, hy] at this
    cases this
    have hv := congrArg (List.map fun p : String × String × String × List Val × String => (p.1, p.2.1)) hrb.vars
    simp only [List.map_map, Function.comp_def] at hv
    refine ⟨hrb.index.symm, hrb.timeIndex.symm, fun p => by rw [hrb.secondary], ?_, fun i t => ?_⟩
    · have := congrArg List.length hv
      simpa using this.symm
    · have hm : ∀ vs : List Var, (∃ v ∈ vs, v.id = i ∧ v.type = t) ↔ (i, t) ∈ vs.map fun v => (v.id, v.type) := by
        intro vs
        simp [List.mem_map]
      rw [hm, hm, hv]
  have hids2 : ∀ e, e ∈ es.entities.map Entity.id ↔ e ∈ (ys.map fun y => { y with lti := f y.id } : List Entity).map Entity.id := by
    intro e
    rw [hzids, hc.ids]
    exact ((isort_perm _ es.entities).map Entity.id).mem_iff.symm
  have hd' : Dicts { entities := ys.map fun y => { y with lti := f y.id }, rels := es.rels, timeType := tt, cache := none } := by
    refine ⟨by rw [hzids]; exact hyids, fun z hz => ?_⟩
    obtain ⟨y, hy, rfl⟩ := List.mem_map.mp hz
    obtain ⟨x, hx, hxy⟩ := hc.mem_right hy
    show (y.secondary.map Prod.fst).Nodup
    rw [hxy.secondary]
    exact hd.secondary x (mem_byId.mp hx)
  refine ⟨n, _, hr, rfl, by simpa using hlen, hrb, ?_, ?_, ?_, fun ho hok x hx => ?_⟩
  · have : describe { entities := ys.map fun y => { y with lti := f y.id }, rels := es.rels, timeType := tt, cache := none } =
      { entities := isort (fun a b => decide (a.id ≤ b.id)) ((ys.map fun y => { y with lti := f y.id }).map describeEntity), relationships := es.rels } := rfl
    rw [this, hc.describe hfs, ← describe_byId, describe_sorted]
    rfl
  · rw [esEq_shallow hd hd']
    exact ⟨⟨hids2, hsame⟩, fun _ h => h⟩
  · rw [esEq_shallow hd' hd]
    exact ⟨⟨fun e => (hids2 e).symm, fun z hz x hx he => (hsame x hx z hz he.symm).symm'⟩, fun _ h => h⟩
  · obtain ⟨y, hxy, hg⟩ := hget x hx
    exact ⟨_, hg, hlti ho hok x hx⟩

namespace SerExample

def json : Json where
  read l := l
  discrete t := t == "id" || t == "index" || t == "categorical"

def orders : Entity where
  id := "orders"
  index := "oid"
  timeIndex := some "t"
  secondary := []
  created := none
  vars := [{ id := "oid", type := "index", name := some "oid", desc := none, interesting := [] },
           { id := "cust", type := "id", name := some "cust", desc := none, interesting := [] },
           { id := "city", type := "categorical", name := none, desc := some "where it went", interesting := [.str "x", .str "y"] },
           { id := "t", type := "datetime_time_index", name := some "t", desc := none, interesting := [] }]
  df := { cols := ["oid", "cust", "city", "t"]
          rows := [Row.ofList [("oid", .num 2), ("cust", .num 8), ("city", .str "y"), ("t", .num 10)],
                   Row.ofList [("oid", .num 3), ("cust", .num 7), ("city", .str "x"), ("t", .num 20)],
                   Row.ofList [("oid", .num 1), ("cust", .num 7), ("city", .str "x"), ("t", .num 30)]]
          dtype := fun c => if c = "city" then "object" else "int64" }
  lti := some [(.num 2, .num 10), (.num 3, .num 20), (.num 1, .num 30)]

def custs : Entity where
  id := "custs"
  index := "id"
  timeIndex := none
  secondary := []
  created := none
  vars := [{ id := "id", type := "index", name := some "id", desc := none, interesting := [] },
           { id := "age", type := "numeric", name := none, desc := none, interesting := [] }]
  df := { cols := ["id", "age"], rows := [Row.ofList [("id", .num 7), ("age", .num 50)], Row.ofList [("id", .num 8), ("age", .num 60)]], dtype := fun _ => "int64" }
  lti := some [(.num 7, .num 30), (.num 8, .num 10)]

/-- Orders and customers, with descriptions, interesting values and last time indexes. -/
def es : ESet := { entities := [orders, custs], rels := [⟨"custs", "id", "orders", "cust"⟩], timeType := some .datetime, cache := none }

theorem orders_ok : DescribableEntity EsExample.lib json .datetime orders where
  varIds := by decide
  cols := by decide
  indexFirst := ⟨_, _, rfl, rfl, rfl⟩
  names := by decide
  params := by decide
  known := by decide
  interesting := by decide
  unique := by decide
  timeVar := by
    intro t ht
    cases ht
    refine ⟨by decide, by decide, ?_, ⟨_, List.getElem_mem (l := SerExample.orders.vars) (n := 3) (by decide), rfl, by decide⟩⟩
    have : orders.df.rows.Pairwise fun a b => (a "t").sortLe (b "t") = true ∧ a "t" ≠ b "t" := by decide
    refine this.imp fun h => ?_
    unfold InOrder
    simp only
    rw [if_neg h.2]
    exact (sortLe_iff _ _).mp h.1
  secondary := by intro p hp; cases hp
  types := by decide
  data := rfl

theorem custs_ok : DescribableEntity EsExample.lib json .datetime custs where
  varIds := by decide
  cols := by decide
  indexFirst := ⟨_, _, rfl, rfl, rfl⟩
  names := by decide
  params := by decide
  known := by decide
  interesting := by decide
  unique := by decide
  timeVar := by intro t ht; cases ht
  secondary := by intro p hp; cases hp
  types := by decide
  data := rfl

theorem es_ok : Describable EsExample.lib json .datetime es where
  schema := by
    refine ⟨by decide, by decide, ?_⟩
    intro r hr
    simp only [es, List.mem_singleton] at hr
    subst hr
    exact ⟨custs, by simp [es], orders, by simp [es], rfl, rfl, rfl, by decide⟩
  entities := by
    intro x hx
    simp only [es, List.mem_cons, List.not_mem_nil, or_false] at hx
    rcases hx with rfl | rfl
    · exact orders_ok
    · exact custs_ok
  links := by
    intro r hr p hp hpe c hc hce
    simp only [es, List.mem_cons, List.not_mem_nil, or_false] at hr hp hc
    subst hr
    rcases hp with rfl | rfl
    · exact absurd hpe (by decide)
    · rcases hc with rfl | rfl
      · exact ⟨⟨_, List.getElem_mem (l := SerExample.orders.vars) (n := 1) (by decide), rfl, rfl⟩, rfl⟩
      · exact absurd hce (by decide)
  lti := by
    right
    intro x hx
    simp only [es, List.mem_cons, List.not_mem_nil, or_false] at hx
    rcases hx with rfl | rfl <;> simp [orders, custs]
  object := by decide

theorem es_dicts : Dicts es := ⟨by decide, by
  intro x hx
  simp only [es, List.mem_cons, List.not_mem_nil, or_false] at hx
  rcases hx with rfl | rfl <;> decide⟩

theorem es_end : ChildrenEnd es := ⟨fun e => if e = "custs" then 1 else 0, by decide⟩

theorem es_orderly : Orderly es := by
  refine ⟨by decide, ?_, ?_⟩
  · intro x hx t ht r hr
    simp only [es, List.mem_cons, List.not_mem_nil, or_false] at hx
    rcases hx with rfl | rfl
    · cases ht
      simp only [orders, List.mem_cons, List.not_mem_nil, or_false] at hr
      rcases hr with rfl | rfl | rfl
      · exact .inr ⟨10, rfl, by decide⟩
      · exact .inr ⟨20, rfl, by decide⟩
      · exact .inr ⟨30, rfl, by decide⟩
    · cases ht
  · intro rel hrel c hc hid s hs s' hs' _ _
    simp only [es, List.mem_cons, List.not_mem_nil, or_false] at hrel hc
    subst hrel
    rcases hc with rfl | rfl
    · have h : ∃ m, s' "t" = .num m := by
        simp only [orders, List.mem_cons, List.not_mem_nil, or_false] at hs'
        rcases hs' with rfl | rfl | rfl
        · exact ⟨10, rfl⟩
        · exact ⟨20, rfl⟩
        · exact ⟨30, rfl⟩
      obtain ⟨m, hm⟩ := h
      exact ⟨m, .own (x := orders) (t := "t") (by simp [es]) hs' rfl hm⟩
    · exact absurd hid (by decide)

end SerExample

/-- The conditions of the round trip are met, last time indexes included, and the example is not trivial. -/
example : Describable EsExample.lib SerExample.json .datetime SerExample.es ∧ Dicts SerExample.es ∧ ChildrenEnd SerExample.es ∧ Orderly SerExample.es ∧
    SerExample.es.entities.length = 2 ∧ SerExample.es.rels.length = 1 :=
  ⟨SerExample.es_ok, SerExample.es_dicts, SerExample.es_end, SerExample.es_orderly, rfl, rfl⟩

/-- The last time indexes of the example are those its entities have. -/
example : (addLastTimeIndexes SerExample.es id [] 9).map (fun es => es.entities.map Entity.lti) = some (SerExample.es.entities.map Entity.lti) := by decide

/-- Reading the example back. -/
example : (rebuild EsExample.lib SerExample.json id 9 (describe SerExample.es) fun e => if e = "orders" then SerExample.orders.df else SerExample.custs.df).map
      (fun p => (p.2, p.1.entities.map Entity.id, describe p.1 == describe SerExample.es)) = some (none, ["custs", "orders"], true) := by decide

/-- **C15 is violated** by renamed variables: the name is written and not read. -/
theorem C15_name_violated :
    let x := { SerExample.custs with vars := [{ id := "id", type := "index", name := none, desc := none, interesting := [] },
      { id := "age", type := "numeric", name := some "years", desc := none, interesting := [] }], lti := none }
    let es : ESet := { entities := [x], rels := [], timeType := none, cache := none }
    (rebuild EsExample.lib SerExample.json id 9 (describe es) fun _ => x.df).map
      (fun p => (p.2, p.1.entities.map fun y => y.vars.map fun v => v.name.getD v.id)) = some (none, [["id", "age"]]) ∧
    es.entities.map (fun y => y.vars.map fun v => v.name.getD v.id) = [["id", "years"]] := by decide

/-- **C15 is violated** by Boolean variables with their own true and false values: these are written and not read. -/
theorem C15_boolean_values_violated :
    let v : Var := { id := "paid", type := "boolean", name := none, desc := none, interesting := [], params := [("true_values", [.str "y"])] }
    let x := { SerExample.custs with vars := [{ id := "id", type := "index", name := none, desc := none, interesting := [] }, v], lti := none
                                     df := { cols := ["id", "paid"], rows := [], dtype := fun _ => "object" } }
    let es : ESet := { entities := [x], rels := [], timeType := none, cache := none }
    (rebuild EsExample.lib SerExample.json id 9 (describe es) fun _ => x.df).map (fun p => (p.2, p.1.entities.map fun y => y.vars.map fun v => v.params.length)) =
      some (none, [[0, 0]]) ∧
    es.entities.map (fun y => y.vars.map fun v => v.params.length) = [[0, 1]] := by decide

/-- **C15 is violated** by an entity with a secondary time index and no time index: it can be created when an entity with a
time index exists, and is read before that one if its id is smaller. -/
theorem C15_secondary_order_violated :
    let a : EntityArgs := { id := "a", df := { cols := ["i", "u"], rows := [], dtype := fun _ => "int64" }, index := some "i", secondary := [("u", ["u"])] }
    let es := (entityFromDataframe EsExample.lib EsExample.es1 a).1
    (entityFromDataframe EsExample.lib EsExample.es1 a).2 = none ∧
    (rebuild EsExample.lib SerExample.json id 9 (describe es) fun e => if e = "a" then a.df else EsExample.orders).map (fun p => p.2) = some (some .typeError) := by
  decide

end FT
