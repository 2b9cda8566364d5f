import Verif.Lemmas.Created
import Verif.Props.EntitySet
/-! # Properties of creating entities: C85 -/
namespace FT
open Spec

namespace CreatedExample

theorem lib_ok : LibOk EsExample.lib where
  keeps := EsExample.lib_keeps
  infers f link given ti sec := by
    show ((f.cols.filter fun c => !given.any fun p => p.1 == c).map fun c => (c, "categorical")).map Prod.fst = _
    rw [List.map_map]
    have : (Prod.fst ∘ fun c : String => (c, "categorical")) = id := rfl
    rw [this, List.map_id]
    apply List.filter_congr
    intro c _
    by_cases h : c ∈ given.map Prod.fst
    · have : (given.any fun p => p.1 == c) = true := by
        obtain ⟨p, hp, rfl⟩ := List.mem_map.mp h
        exact List.any_eq_true.mpr ⟨p, hp, by simp⟩
      rw [this]; simp [h]
    · have : (given.any fun p => p.1 == c) = false := by
        rw [List.any_eq_false]
        intro p hp he
        exact h (List.mem_map.mpr ⟨p, hp, by simpa using he⟩)
      rw [this]; simp [h]
  time _ _ _ _ := rfl
  date _ _ _ _ := rfl

/-- Orders with two times and given types. -/
def args : EntityArgs :=
  { id := "more", df := EsExample.orders, index := some "row", timeIndex := some "t", secondary := [("u", ["city"])]
    types := [("city", .str "ordinal"), ("n", .cls "numeric")] }

def args2 : EntityArgs :=
  { args with df := { EsExample.orders with cols := ["oid", "cust", "city", "t", "n", "u"] } }

end CreatedExample

/-- **C85.** An entity that is created has the index, time index and secondary time indexes asked for, each of the latter
governing its own column too; its variables are the columns of the frame, that of the index first, with the types of a
time index or index, those asked for, or else the inferred ones; its rows are those of the frame, in order of time and
then of index unless there is no time index or the data are said to be sorted; and all its time indexes are of the time
type the entity set has afterwards, which is the one it had if it had one. -/
theorem C85_created (lib : Lib) (hl : LibOk lib) (es es' : ESet) (a : EntityArgs) (hd : (a.types.map Prod.fst).Nodup)
    (h : entityFromDataframe lib es a = (es', none)) : ∃ x, es'.get? a.id = some x ∧ IsCreated lib es a es'.timeType x := by
  obtain ⟨_, tt, x, hx, rfl⟩ := create_iff.mp h
  have hc := newEntity_created hl hd hx
  refine ⟨x, ?_, hc⟩
  show (setEntity es.entities x).find? _ = _
  rw [get?_setEntity, if_pos hc.id]

/-- **C85.** Exactly the arguments described are accepted, for a new id in an entity set with well-formed relationships, as
long as data conversion does not fail. -/
theorem C85_accepted_iff (lib : Lib) (hl : LibOk lib) (hconv : ∀ f ts, ∃ g, lib.convert f ts = .ok g) (es : ESet) (hes : SchemaOk es)
    (a : EntityArgs) (hn : a.id ∉ es.entities.map Entity.id) (hd : (a.types.map Prod.fst).Nodup) :
    (entityFromDataframe lib es a).2 = none ↔ ∃ i, Acceptable lib es a i := by
  have hlink : linkedVars es a.id es.rels = .ok [] := by
    refine linkedVars_new fun r hr => ?_
    obtain ⟨p, hp, c, hc, h1, h2, _⟩ := hes.linked r hr
    have hp' := get?_of_mem hes.ids hp
    have hc' := get?_of_mem hes.ids hc
    rw [h1] at hp'
    rw [h2] at hc'
    refine ⟨by rw [hp']; rfl, by rw [hc']; rfl, ?_, ?_⟩
    · rintro he; exact hn (List.mem_map.mpr ⟨p, hp, h1.trans he⟩)
    · rintro he; exact hn (List.mem_map.mpr ⟨c, hc, h2.trans he⟩)
  have hsucc : (entityFromDataframe lib es a).2 = none ↔ ∃ es', entityFromDataframe lib es a = (es', none) := by
    constructor
    · intro h; exact ⟨_, Prod.ext rfl h⟩
    · rintro ⟨_, h⟩; rw [h]
  rw [hsucc]
  constructor
  · rintro ⟨es', h⟩
    obtain ⟨ha, tt, x, hx, _⟩ := create_iff.mp h
    exact (newEntity_accepted hl hconv hd hlink ha).mp ⟨tt, x, hx⟩
  · rintro ⟨i, h⟩
    have ha := (entityArgsError_iff a).mpr ⟨h.apart, h.noLone⟩
    obtain ⟨tt, x, hx⟩ := (newEntity_accepted hl hconv hd hlink ha).mpr ⟨i, h⟩
    exact ⟨_, create_iff.mpr ⟨ha, tt, x, hx, rfl⟩⟩

/-- The call of the example succeeds, and gives an ordered frame with a made index and a secondary time index. -/
example : LibOk EsExample.lib ∧ (∀ f ts, ∃ g, EsExample.lib.convert f ts = .ok g) ∧
    ((entityFromDataframe EsExample.lib EsExample.es3 CreatedExample.args2).1.get? "more").map
      (fun x => (x.vars.map fun v => (v.id, v.type), x.secondary, x.df.rows.map fun r => (r "row", r "t"))) =
      some ([("row", "index"), ("oid", "categorical"), ("cust", "categorical"), ("t", "datetime_time_index"), ("u", "categorical"),
        ("city", "ordinal"), ("n", "numeric")], [("u", ["city", "u"])], [(.num 1, .num 10), (.num 2, .num 20), (.num 0, .num 30)]) ∧
    (entityFromDataframe EsExample.lib EsExample.es3 CreatedExample.args2).2 = none ∧
    (entityFromDataframe EsExample.lib EsExample.es3 CreatedExample.args).2 = some .keyError :=
  ⟨CreatedExample.lib_ok, fun f _ => ⟨f, rfl⟩, by decide, by decide, by decide⟩

example : SchemaOk EsExample.es3 ∧ CreatedExample.args.id ∉ EsExample.es3.entities.map Entity.id :=
  ⟨C04_schema_ok_partial _ _ (EsExample.es3_reached _ (by simp [Op.NewId, ESet.empty]) (by show _ ∉ _; decide) trivial), by decide⟩

end FT
