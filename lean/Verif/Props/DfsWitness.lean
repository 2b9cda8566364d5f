import Verif.Props.Dfs
/-!
# Deep Feature Synthesis: concrete cases

Cases that meet the hypotheses of the theorems of `Props/Dfs`, and calls where the code does not do what C40, C41, C44 and
C46 say.
-/
namespace FT
open FT.Spec
namespace DfsExample
/-- Customers with sessions; devices have interesting values. -/
def namer : Namer where
  direct := fun r n => r.parentE ++ "." ++ n
  agg := fun p path ns w => p.name ++ "(" ++ String.intercalate "." ((pathEntities path).drop 1) ++ "." ++ String.intercalate "," ns ++
    (match w with | some w => " WHERE " ++ w | none => "") ++ ")"
  trans := fun p ns => p.name ++ "(" ++ String.intercalate "," ns ++ p.argStr ++ ")"
  groupby := fun p ns g => p.name ++ "(" ++ String.intercalate "," ns ++ " by " ++ g ++ ")"
  slice := fun f i => f.name ++ "[" ++ toString i ++ "]"
def lang : Lang where
  sub := fun a b => a == b || b == "Variable" || (b == "Discrete" && (a == "Categorical" || a == "Id" || a == "Index"))
  lower := id
  setOrder := id
  namer := namer
def aggP (cls name inp : String) : Prim :=
  { cls := cls, supers := [cls, "AggregationPrimitive", "PrimitiveBase"], name := name, argStr := "", inputs := [inp], alts := [[inp]], ret := some "Numeric", outputs := 1, commutative := false, transform := false, stackOnSelf := some false, stackOn := none, stackOnExclude := none, baseOf := none, baseOfExclude := none }
def transP (cls name : String) (inp : List String) : Prim :=
  { cls := cls, supers := [cls, "TransformPrimitive", "PrimitiveBase"], name := name, argStr := "", inputs := inp, alts := [inp], ret := some "Numeric", outputs := 1, commutative := true, transform := true, stackOnSelf := none, stackOn := none, stackOnExclude := none, baseOf := none, baseOfExclude := none }
def sum := aggP "Sum" "sum" "Numeric"
def count := aggP "Count" "count" "Index"
def add := transP "AddNumeric" "add_numeric" ["Numeric", "Numeric"]
def eq (v : Val) : Prim :=
  { transP "EqualScalar" "equal_scalar" ["Variable"] with argStr := " = " ++ (match v with | .str s => s | _ => "?") }
def custs : DEnt := ⟨"customers", "id", [⟨"id", "id", "Index", []⟩, ⟨"age", "age", "Numeric", []⟩]⟩
def sess : DEnt := ⟨"sessions", "id", [⟨"id", "id", "Index", []⟩, ⟨"cid", "cid", "Id", []⟩, ⟨"device", "device", "Categorical", [.str "pc"]⟩, ⟨"len", "len", "Numeric", []⟩]⟩
def rels : List Relationship := [⟨"customers", "id", "sessions", "cid"⟩]
def args : DfsArgs := { target := "customers", maxDepth := 2, aggs := [sum, count], trans := [add], wheres := [count], groupbys := [], allowedPaths := [], ignoreEntities := [], ignoreVariables := [], options := [], seeds := [], whereLimit := 1, sel := ⟨none, [], [], -1⟩ }
def outcome (x : Except DfsErr (List DFeat)) : Option (List String) := match x with | .ok l => some (l.map DFeat.name) | .error _ => none

/-- The call returns. -/
theorem runs : outcome (dfsFeatures lang eq [custs, sess] rels args) = some ["age", "count(sessions.id)", "sum(sessions.len)",
    "count(sessions.id WHERE equal_scalar(device = pc))", "add_numeric(age,count(sessions.id))", "add_numeric(age,sum(sessions.len))",
    "add_numeric(count(sessions.id),sum(sessions.len))"] := by decide +kernel
/-- The call for the sessions returns. -/
theorem runs' : outcome (dfsFeatures lang eq [custs, sess] rels { args with target := "sessions", wheres := [] }) = some ["cid", "device", "len", "customers.age",
    "customers.count(sessions.id)", "customers.sum(sessions.len)", "add_numeric(customers.age,len)"] := by decide +kernel

theorem outcome_ok {x : Except DfsErr (List DFeat)} {l : List String} (h : outcome x = some l) : ∃ r, x = .ok r ∧ r.map DFeat.name = l := by
  cases x with
  | error e => cases h
  | ok r => exact ⟨r, rfl, Option.some.inj h⟩

theorem lang_perm : ∀ l, (lang.setOrder l).Perm l := fun l => .refl l

/-! ## The hypotheses are met -/

example : ∃ r, dfsFeatures lang eq [custs, sess] rels args = .ok r ∧ 7 = r.length ∧ (r.map DFeat.name).Nodup := by
  obtain ⟨r, hr, hn⟩ := outcome_ok runs
  exact ⟨r, hr, by rw [← List.length_map (f := DFeat.name), hn]; rfl, (C39_returned _ _ _ _ _ lang_perm (by simp [args]) hr).2.1⟩

/-- Selecting: the counts and the sum are dropped by their names. -/
example : outcome (dfsFeatures lang eq [custs, sess] rels { args with sel := ⟨some ["Numeric"], ["count"], ["sum(sessions.len)"], 2⟩ }) =
    some ["age", "add_numeric(age,sum(sessions.len))"] := by decide +kernel

/-- Every chain of the two entities is a shortest walk. -/
theorem up_short : ∀ b path, Chain rels "sessions" b path → ∀ n, Walk rels "sessions" b n → path.length ≤ n := by
  intro b path h n hw
  match path, h with
  | [], _ => simp
  | [r], h =>
    obtain ⟨hr, _, hb⟩ := h
    simp [rels] at hr
    subst hr
    cases hb
    have : n ≠ 0 := by
      intro h0
      subst h0
      generalize hb : "customers" = b at hw
      generalize hz : 0 = z at hw
      cases hw with
      | here => exact absurd hb (by decide)
      | up => cases hz
      | down => cases hz
    simp; omega
  | r :: r' :: p, h =>
    obtain ⟨hr, _, hr', h1, _⟩ := h
    simp [rels] at hr hr'
    subst hr; subst hr'
    exact absurd h1 (by decide)

example : ∃ r, dfsFeatures lang eq [custs, sess] rels { args with target := "sessions", wheres := [] } = .ok r ∧
    ∀ f ∈ r, ∀ n : Nat, DepChain [] f n → (n : Int) ≤ 2 := by
  obtain ⟨r, hr, _⟩ := outcome_ok runs'
  exact ⟨r, hr, C40_max_depth_partial _ _ _ _ _ lang_perm rfl (by decide) (by simp [args]) up_short (by decide) hr⟩

theorem rels_acyclic : Acyclic rels := by
  intro a p h
  match p, h with
  | [], _ => rfl
  | [r], h =>
    obtain ⟨hr, h1, h2⟩ := h
    simp [rels] at hr
    subst hr
    simp only [Chain] at h2
    rw [← h1] at h2
    exact absurd h2 (by decide)
  | r :: r' :: p, h =>
    obtain ⟨hr, _, hr', h1, _⟩ := h
    simp [rels] at hr hr'
    subst hr; subst hr'
    exact absurd h1 (by decide)

example : dfsFeatures lang eq [custs, sess] rels args ≠ .error .diverges := (C42_terminates _ _ _ _ _ lang_perm rels_acyclic).1

/-- Ignoring a column. -/
theorem runs_ignoring : outcome (dfsFeatures lang eq [custs, sess] rels { args with ignoreVariables := [("sessions", ["len"])] }) =
    some ["age", "count(sessions.id)", "count(sessions.id WHERE equal_scalar(device = pc))", "add_numeric(age,count(sessions.id))"] := by
  decide +kernel

example : ∃ r, dfsFeatures lang eq [custs, sess] rels { args with ignoreVariables := [("sessions", ["len"])] } = .ok r ∧
    ∀ f ∈ r, ∀ g, DepUses [] f g → g.entity = "sessions" → (∃ v t, g.kind = .identity v t) → g.name ≠ "len" := by
  obtain ⟨r, hr, _⟩ := outcome_ok runs_ignoring
  refine ⟨r, hr, fun f hf g hu he hk hn => ?_⟩
  obtain ⟨v, t, hk⟩ := hk
  obtain ⟨_, _, os, ho, _⟩ := (C41_ignored _ _ _ _ _ lang_perm hr hf hu).2 v t ["len"] hk (by rw [he]; rfl) (by rw [hn]; simp)
  rcases ho with ho | ho
  · cases ho
  · cases ho.2

example : dfsFeatures lang eq [custs, sess] rels { args with ignoreEntities := ["customers"] } = .error (.py .assertionError) :=
  C41_target _ _ _ _ _ (by decide) ⟨custs, by simp, rfl⟩

example : ∃ r, dfsFeatures lang eq [custs, sess] rels args = .ok r ∧ ∀ f ∈ r, ∀ n : Nat, WhereChain f n → (n : Int) ≤ 1 := by
  obtain ⟨r, hr, _⟩ := outcome_ok runs
  exact ⟨r, hr, C45_where_stacking _ _ _ _ _ lang_perm (by simp [args]) (by simp [args]) hr⟩

/-- Some returned feature has a condition. -/
def conditioned (x : Except DfsErr (List DFeat)) : Bool := match x with
  | .ok r => r.any fun f => !f.wh.isEmpty && f.isAgg | .error _ => false
theorem runs_conditioned : conditioned (dfsFeatures lang eq [custs, sess] rels args) = true := by decide +kernel

example : ∃ r, dfsFeatures lang eq [custs, sess] rels args = .ok r ∧ ∃ f ∈ r, f.wh ≠ [] ∧ ∃ path p, f.kind = .agg path p := by
  have h := runs_conditioned
  obtain ⟨r, hr, _⟩ := outcome_ok runs
  rw [hr] at h
  obtain ⟨f, hf, h⟩ := List.any_eq_true.mp h
  simp only [Bool.and_eq_true] at h
  refine ⟨r, hr, f, hf, by intro e; rw [e] at h; simp at h, ?_⟩
  cases hk : f.kind <;> simp [DFeat.isAgg, hk] at h
  exact ⟨_, _, rfl⟩

/-- Options for the sum: only sessions, without their length. -/
def sumOptions : List (PKey × List POption) := [(.named "sum", [{ ignoreVars := [("sessions", ["len"])] }])]
theorem runs_options : outcome (dfsFeatures lang eq [custs, sess] rels { args with options := sumOptions, wheres := [] }) =
    some ["age", "count(sessions.id)", "add_numeric(age,count(sessions.id))"] := by decide +kernel
example : UserOptions sumOptions sum [{ ignoreVars := [("sessions", ["len"])] }] := .inr ⟨rfl, rfl⟩
example : NoOptions sumOptions count := ⟨rfl, by decide⟩

end DfsExample
open DfsExample

/-! ## Where the code breaks its promises -/

/-- The call returns a feature with a chain of `n` dependencies. -/
def DfsExample.deep (n : Nat) (x : Except DfsErr (List DFeat)) : Bool := match x with
  | .ok r => r.any fun f => decide (n ≤ f.depth []) | .error _ => false

theorem DfsExample.deep_sound {ents : List DEnt} {rels : List Relationship} {a : DfsArgs} {n : Nat} (hs : a.seeds = [])
    (h : deep n (dfsFeatures lang eq ents rels a) = true) :
    ∃ r, dfsFeatures lang eq ents rels a = .ok r ∧ ∃ f ∈ r, DepChain [] f n := by
  cases hx : dfsFeatures lang eq ents rels a with
  | error e => rw [hx] at h; cases h
  | ok r =>
    rw [hx] at h
    obtain ⟨f, hf, h⟩ := List.any_eq_true.mp h
    obtain ⟨S, hc, hr⟩ := dfs_built lang_perm hx
    refine ⟨r, rfl, f, hf, depChain_shorter (depth_chain _ rfl ?_) (of_decide_eq_true h)⟩
    exact built_proper (fun g hg => by have := (hc.seeds g).mp hg; rw [hs] at this; cases this) (hr f hf).1

/-- C40 does not hold: with `max_depth = 1` a count with a condition has depth two, because the depth of conditions is never
checked. -/
theorem C40_condition_violated :
    ∃ r, dfsFeatures lang eq [custs, sess] rels { args with maxDepth := 1 } = .ok r ∧ ∃ f ∈ r, DepChain [] f 2 :=
  deep_sound rfl (by decide +kernel)

/-- Shops are in towns and towns in regions; a shop also has the region. -/
def DfsExample.shop : DEnt := ⟨"shops", "id", [⟨"id", "id", "Index", []⟩, ⟨"town", "town", "Id", []⟩, ⟨"region", "region", "Id", []⟩]⟩
def DfsExample.town : DEnt := ⟨"towns", "id", [⟨"id", "id", "Index", []⟩, ⟨"region", "region", "Id", []⟩]⟩
def DfsExample.region : DEnt := ⟨"regions", "id", [⟨"id", "id", "Index", []⟩, ⟨"size", "size", "Numeric", []⟩]⟩
def DfsExample.diamond : List Relationship := [⟨"towns", "id", "shops", "town"⟩, ⟨"regions", "id", "towns", "region"⟩, ⟨"regions", "id", "shops", "region"⟩]
def DfsExample.diamond' : List Relationship := [⟨"regions", "id", "shops", "region"⟩, ⟨"regions", "id", "towns", "region"⟩, ⟨"towns", "id", "shops", "town"⟩]

/-- C40 does not hold: with `max_depth = 1` a shop gets the size of the region of its town, of depth two. The regions are visited
first, at the level of the shortcut; their features are then used at any distance. -/
theorem C40_shortcut_violated :
    ∃ r, dfsFeatures lang eq [shop, town, region] diamond' { args with target := "shops", maxDepth := 1, aggs := [], trans := [], wheres := [] } = .ok r ∧
      ∃ f ∈ r, DepChain [] f 2 :=
  deep_sound rfl (by decide +kernel)

/-- An aggregation with two outputs. -/
def DfsExample.minMax : Prim := { aggP "MinMax" "min_max" "Numeric" with outputs := 2 }

/-- C40 does not hold: with `max_depth = 2` a session gets one of the two outputs of an aggregation of its customer, of depth three. -/
theorem C40_outputs_violated :
    ∃ r, dfsFeatures lang eq [custs, sess] rels { args with target := "sessions", maxDepth := 2, aggs := [minMax], trans := [], wheres := [] } = .ok r ∧
      ∃ f ∈ r, DepChain [] f 3 :=
  deep_sound rfl (by decide +kernel)

/-- Regions have towns, and both have shops. -/
def DfsExample.shops' : DEnt := ⟨"shops", "id", [⟨"id", "id", "Index", []⟩, ⟨"town", "town", "Id", []⟩, ⟨"region", "region", "Id", []⟩, ⟨"sales", "sales", "Numeric", []⟩]⟩

/-- An aggregation among the features leads through the entity. -/
def DfsExample.leads (e : String) (x : Except DfsErr (List DFeat)) : Bool := match x with
  | .ok r => r.any fun f => match f.kind with | .agg path _ => (pathEntities path).contains e | _ => false
  | .error _ => false

/-- C41: the rows of an ignored entity are still used to get from the target to another entity: with the towns ignored, the sales of
a region are summed along its towns. -/
theorem C41_path_violated :
    ∃ r, dfsFeatures lang eq [shops', town, region] diamond { args with target := "regions", aggs := [sum], trans := [], wheres := [], ignoreEntities := ["towns"] } = .ok r ∧
      ∃ f ∈ r, ∃ path p, f.kind = .agg path p ∧ "towns" ∈ pathEntities path := by
  have h : leads "towns" (dfsFeatures lang eq [shops', town, region] diamond { args with target := "regions", aggs := [sum], trans := [], wheres := [], ignoreEntities := ["towns"] }) = true := by
    decide +kernel
  cases hx : dfsFeatures lang eq [shops', town, region] diamond { args with target := "regions", aggs := [sum], trans := [], wheres := [], ignoreEntities := ["towns"] } with
  | error e => rw [hx] at h; cases h
  | ok r =>
    rw [hx] at h
    obtain ⟨f, hf, h⟩ := List.any_eq_true.mp h
    refine ⟨r, rfl, f, hf, ?_⟩
    split at h
    · next path p hk => exact ⟨path, p, hk, by simpa using h⟩
    · cases h

/-- A mean that no sum may be based on. -/
def DfsExample.mean : Prim := { aggP "Mean" "mean" "Numeric" with baseOfExclude := some ["Sum"] }
def DfsExample.regional : List Relationship := [⟨"regions", "id", "towns", "region"⟩, ⟨"towns", "id", "shops", "town"⟩]
def DfsExample.raised (x : Except DfsErr (List DFeat)) : Option DfsErr := match x with | .ok _ => none | .error e => some e

/-- C44: a primitive with `base_of_exclude` makes the synthesis raise `AttributeError` instead of keeping others from stacking on
it. -/
theorem C44_base_of_exclude_violated :
    dfsFeatures lang eq [shops', town, region] regional { args with target := "regions", aggs := [sum, mean], trans := [], wheres := [] } =
      .error (.py .attributeError) := by
  have h : raised (dfsFeatures lang eq [shops', town, region] regional { args with target := "regions", aggs := [sum, mean], trans := [], wheres := [] }) =
      some (.py .attributeError) := by decide +kernel
  revert h
  cases dfsFeatures lang eq [shops', town, region] regional { args with target := "regions", aggs := [sum, mean], trans := [], wheres := [] } with
  | ok r => intro h; cases h
  | error e => intro h; simp only [raised, Option.some.injEq] at h; rw [h]

/-- Counting must not use the devices. -/
def DfsExample.countOptions : List (PKey × List POption) := [(.named "count", [{ ignoreVars := [("sessions", ["device"])] }])]
def DfsExample.conditionOn (e v : String) (x : Except DfsErr (List DFeat)) : Bool := match x with
  | .ok r => r.any fun f => decide (f.prim = count) && f.isAgg && f.wh.any fun w => w.bases.any fun c =>
      (match c.kind with | .identity v' _ => v' == v | _ => false) && c.entity == e
  | .error _ => false

/-- C46: the options of a primitive say nothing about its conditions: a count that must not use the devices is made for the
sessions of a device. -/
theorem C46_condition_violated :
    UserOptions countOptions count [{ ignoreVars := [("sessions", ["device"])] }] ∧
    ∃ r, dfsFeatures lang eq [custs, sess] rels { args with options := countOptions } = .ok r ∧
      ∃ f ∈ r, (∃ path, f.kind = .agg path count) ∧ ∃ w ∈ f.wh, ∃ c ∈ w.bases, (∃ t, c.kind = .identity "device" t) ∧ c.entity = "sessions" := by
  refine ⟨.inr ⟨rfl, rfl⟩, ?_⟩
  have h : conditionOn "sessions" "device" (dfsFeatures lang eq [custs, sess] rels { args with options := countOptions }) = true := by decide +kernel
  cases hx : dfsFeatures lang eq [custs, sess] rels { args with options := countOptions } with
  | error e => rw [hx] at h; cases h
  | ok r =>
    rw [hx] at h
    obtain ⟨f, hf, h⟩ := List.any_eq_true.mp h
    simp only [Bool.and_eq_true, decide_eq_true_eq, List.any_eq_true] at h
    obtain ⟨⟨hp, ha⟩, w, hw, c, hc, hk, he⟩ := h
    refine ⟨r, rfl, f, hf, ?_, w, hw, c, hc, ?_, by simpa using he⟩
    · obtain ⟨k, e, n, bs, ws⟩ := f
      cases k <;> simp [DFeat.isAgg, DFeat.kind] at ha
      exact ⟨_, by rw [← hp]; rfl⟩
    · split at hk
      · next v t hv => exact ⟨t, by rw [hv, beq_iff_eq.mp hk]⟩
      · cases hk

end FT
