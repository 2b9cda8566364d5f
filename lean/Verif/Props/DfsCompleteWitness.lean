import Verif.Props.DfsComplete
import Verif.Props.DfsWitness
import Std.Data.String.ToNat
/-!
# What Deep Feature Synthesis must find: concrete cases (C61)
-/
namespace FT
open FT.Spec
namespace DfsExample

/-! ## The hypotheses are met -/

theorem not_slice {n : String} (h : n.toList.getLast? ≠ some ']') : ∀ g i, lang.namer.slice g i ≠ n := by
  rintro g i rfl
  apply h
  show (g.name ++ "[" ++ toString i ++ "]").toList.getLast? = _
  rw [String.toList_append, show "]".toList = [']'] from rfl, List.getLast?_concat]

theorem chain_column {d : DEnt} {v : DVar} {stop : List String} {n : Nat} (h : DepChain stop (column d v) n) : n = 0 := by
  cases h with
  | nil => rfl
  | cons h => exact absurd rfl (h v.id v.type)

theorem uses_column {d : DEnt} {v : DVar} {g : DFeat} (h : DepUses [] (column d v) g) : g = column d v := by
  cases h with
  | self => rfl
  | dep _ hd _ => cases hd

theorem behind_column {d : DEnt} {v : DVar} {q : Prim} (h : Behind q (column d v)) : q = .plain := by
  rcases h with h | ⟨_, h⟩
  · cases h
  · exact h

def len : DVar := ⟨"len", "len", "Numeric", []⟩
def deviceVar : DVar := ⟨"device", "device", "Categorical", [.str "pc"]⟩
def sessId : DVar := ⟨"id", "id", "Index", []⟩
def cidVar : DVar := ⟨"cid", "cid", "Id", []⟩
def age : DVar := ⟨"age", "age", "Numeric", []⟩
def cust : Relationship := ⟨"customers", "id", "sessions", "cid"⟩

/-- A column of one of the two entities is usable. -/
theorem usable {a : DfsArgs} (h1 : a.ignoreVariables = []) (h2 : a.seeds = []) : (∀ v ∈ sess.vars, UsableColumn [custs, sess] a "sessions" (column sess v)) ∧
    ∀ v ∈ custs.vars, UsableColumn [custs, sess] a "customers" (column custs v) := by
  refine ⟨fun v hv => ⟨sess, v, rfl, hv, rfl, ?_, by simp [h1], by simp [h2]⟩, fun v hv => ⟨custs, v, rfl, hv, rfl, ?_, by simp [h1], by simp [h2]⟩⟩
  · intro v' hv' he
    simp only [sess, List.mem_cons, List.not_mem_nil, or_false] at hv hv'
    rcases hv with rfl | rfl | rfl | rfl <;> rcases hv' with rfl | rfl | rfl | rfl <;> first | rfl | exact absurd he (by decide)
  · intro v' hv' he
    simp only [custs, List.mem_cons, List.not_mem_nil, or_false] at hv hv'
    rcases hv with rfl | rfl <;> rcases hv' with rfl | rfl <;> first | rfl | exact absurd he (by decide)

theorem free {a : DfsArgs} (ht : a.target = "customers" ∨ a.target = "sessions") (hs : a.seeds = []) {n : String} (h : n ≠ "id") : FreeName [custs, sess] a n := by
  refine ⟨fun d hd v hv hi => ?_, by simp [hs]⟩
  rcases ht with ht | ht
  · rw [ht] at hd
    cases hd
    simp only [custs, List.mem_cons, List.not_mem_nil, or_false] at hv hi
    rcases hv with rfl | rfl
    · exact fun e => h e.symm
    · exact absurd hi (by decide)
  · rw [ht] at hd
    cases hd
    simp only [sess, List.mem_cons, List.not_mem_nil, or_false] at hv hi
    rcases hv with rfl | rfl | rfl | rfl
    · exact fun e => h e.symm
    all_goals exact absurd hi (by decide)

/-- The age is returned. -/
example : ∃ r, dfsFeatures lang eq [custs, sess] rels args = .ok r ∧ column custs age ∈ r := by
  obtain ⟨r, hr, _⟩ := outcome_ok runs
  refine ⟨r, hr, C61_columns lang eq _ _ args lang_perm rfl hr ((usable rfl rfl).2 age (by simp [custs, age])) ?_⟩
  intro d hd v t hk
  cases hd
  cases hk
  decide

/-- The names of conditions tell the column. -/
theorem clause_name (x' : Val) (n' : String) (h : lang.namer.trans (eq x') [n'] = lang.namer.trans (eq (.str "pc")) ["device"]) : n' = "device" := by
  have h1 : (lang.namer.trans (eq x') [n']).toList = "equal_scalar(device = pc)".toList := by rw [h]; decide +kernel
  have h2 : ∃ s : String, (eq x').argStr = " = " ++ s := ⟨_, rfl⟩
  obtain ⟨s, hs⟩ := h2
  have h3 : lang.namer.trans (eq x') [n'] = "equal_scalar" ++ "(" ++ n' ++ (" = " ++ s) ++ ")" := by rw [← hs]; rfl
  rw [h3] at h1
  simp only [String.toList_append] at h1
  apply String.toList_injective
  generalize n'.toList = l at h1
  generalize s.toList = k at h1
  clear h h3 hs
  simp at h1
  rcases l with _ | ⟨c0, l⟩
  · simp at h1
  simp only [List.cons_append, List.cons.injEq] at h1
  obtain ⟨rfl, h1⟩ := h1
  rcases l with _ | ⟨c1, l⟩
  · simp at h1
  simp only [List.cons_append, List.cons.injEq] at h1
  obtain ⟨rfl, h1⟩ := h1
  rcases l with _ | ⟨c2, l⟩
  · simp at h1
  simp only [List.cons_append, List.cons.injEq] at h1
  obtain ⟨rfl, h1⟩ := h1
  rcases l with _ | ⟨c3, l⟩
  · simp at h1
  simp only [List.cons_append, List.cons.injEq] at h1
  obtain ⟨rfl, h1⟩ := h1
  rcases l with _ | ⟨c4, l⟩
  · simp at h1
  simp only [List.cons_append, List.cons.injEq] at h1
  obtain ⟨rfl, h1⟩ := h1
  rcases l with _ | ⟨c5, l⟩
  · simp at h1
  simp only [List.cons_append, List.cons.injEq] at h1
  obtain ⟨rfl, h1⟩ := h1
  rcases l with _ | ⟨c6, l⟩
  · rfl
  simp only [List.cons_append, List.cons.injEq] at h1
  obtain ⟨rfl, h1⟩ := h1
  rcases l with _ | ⟨c7, l⟩
  · simp at h1
  simp only [List.cons_append, List.cons.injEq] at h1
  obtain ⟨rfl, h1⟩ := h1
  rcases l with _ | ⟨c8, l⟩
  · simp at h1
  simp only [List.cons_append, List.cons.injEq] at h1
  obtain ⟨rfl, h1⟩ := h1
  rcases l with _ | ⟨c9, l⟩
  · simp at h1
  simp only [List.cons_append, List.cons.injEq] at h1
  obtain ⟨rfl, h1⟩ := h1
  rcases l with _ | ⟨c10, l⟩
  · simp at h1
  simp only [List.cons_append, List.cons.injEq] at h1
  obtain ⟨rfl, h1⟩ := h1
  rcases l with _ | ⟨c11, l⟩
  · simp at h1
  simp only [List.cons_append, List.cons.injEq] at h1
  obtain ⟨rfl, h1⟩ := h1
  simp at h1

theorem below : Chain rels "sessions" "customers" [cust] := ⟨by simp [rels, cust], rfl, rfl⟩

/-- The sum of the lengths is returned, and the count of sessions with a device. -/
example : ∃ r, dfsFeatures lang eq [custs, sess] rels args = .ok r ∧ (∃ f ∈ r, f.name = "sum(sessions.len)") ∧
    ∃ f ∈ r, f.name = "count(sessions.id WHERE equal_scalar(device = pc))" := by
  obtain ⟨r, hr, _⟩ := outcome_ok runs
  have built : ∀ v ∈ sess.vars, BuiltFor lang eq [custs, sess] rels args "sessions" (column sess v) := fun v hv =>
    C61_built_columns lang eq _ _ args lang_perm rfl hr ((usable rfl rfl).1 v hv) (.inr (.inl ⟨[cust], below, by simp, .inr ⟨rfl, by decide, by simp [args], .inl rfl⟩⟩))
  have key : ∀ v ∈ sess.vars, v.name ≠ "cid" → ∀ p : Prim, p.stackOnExclude = none → p.cls ≠ "PrimitiveBase" → ∀ f ∈ [column sess v],
      Offered lang (BuiltFor lang eq [custs, sess] rels args "sessions") f ∧ NothingIgnored args p f ∧ ¬LinkColumn [cust] f ∧
      (∀ q, f.kind = .direct q → q.parentE ≠ args.target) ∧
      (∀ n, DepChain (args.seeds.map DFeat.uname) f n → WithinLimit [custs, sess] args.maxDepth (n + 1)) ∧ ∀ q, Behind q f → MayStack p q := by
    intro v hv hc p hp1 hp2 f hf
    simp only [List.mem_singleton] at hf
    subst hf
    refine ⟨.inl ⟨built v hv, rfl, not_slice ?_⟩, ⟨⟨rfl, rfl⟩, fun g hg => ?_⟩, ?_, fun q hq => (by cases hq), fun n hn => ?_, fun q hq => ?_⟩
    · simp only [sess, List.mem_cons, List.not_mem_nil, or_false] at hv
      rcases hv with rfl | rfl | rfl | rfl <;> decide +kernel
    · rw [uses_column hg]
      exact ⟨by simp [args], fun _ vs hvs => by cases hvs⟩
    · rintro ⟨q, hq, v', t', hk, h⟩
      simp only [List.mem_singleton] at hq
      subst hq
      cases hk
      rcases h with ⟨_, h⟩ | ⟨h, _⟩
      · simp only [sess, List.mem_cons, List.not_mem_nil, or_false] at hv
        rcases hv with rfl | rfl | rfl | rfl
        · exact absurd h (by decide)
        · exact absurd rfl hc
        · exact absurd h (by decide)
        · exact absurd h (by decide)
      · exact absurd h (by simp [column, DFeat.entity, sess, cust])
    · rw [chain_column hn]
      exact ⟨by decide, by decide⟩
    · rw [behind_column hq]
      exact ⟨fun _ => by simpa [Prim.plain] using hp2, fun l hl => by rw [hp1] at hl; (cases hl), .inr (.inr (.inr (.inl rfl)))⟩
  refine ⟨r, hr, ?_, ?_⟩
  · obtain ⟨u, hu, hc, hfound⟩ := C61_aggregation_partial lang eq _ _ args lang_perm (by simp [args]) rfl hr below (by simp)
      (.inr ⟨rfl, by decide, by simp [args], .inl rfl⟩) (p := sum) (by simp [args]) (t := [column sess len]) (by simp) ⟨rfl, trivial⟩
      (List.pairwise_singleton _ _) (key len (by simp [sess, len]) (by decide) sum rfl (by decide))
    rw [hc rfl] at hfound
    have e : lang.namer.agg sum ([cust].reverse.map fun q => (false, q)) ([column sess len].map DFeat.name) none = "sum(sessions.len)" := by decide +kernel
    rw [e] at hfound
    exact hfound (free (.inl rfl) rfl (by decide))
  · obtain ⟨u, hu, hc, hfound⟩ := C61_where_partial lang eq _ _ args lang_perm (by simp [args]) rfl hr below (by simp)
      (.inr ⟨rfl, by decide, by simp [args], .inl rfl⟩) (p := count) (by simp [args]) (t := [column sess sessId]) (by simp) ⟨rfl, trivial⟩
      (List.pairwise_singleton _ _) (key sessId (by simp [sess, sessId]) (by decide) count rfl (by decide))
      (fun f hf g hg => by
        simp only [List.mem_singleton] at hf
        subst hf
        rw [uses_column hg]
        rintro ⟨⟨path, p, h⟩, _⟩
        cases h) (by decide) ⟨count, by simp [args], by decide⟩ (dc := sess) rfl (v := deviceVar) (by simp [sess, deviceVar])
      (fun v' hv' he => by
        simp only [sess, List.mem_cons, List.not_mem_nil, or_false] at hv'
        rcases hv' with rfl | rfl | rfl | rfl <;> first | rfl | exact absurd he (by decide))
      ((usable rfl rfl).1 deviceVar (by simp [sess, deviceVar])) (fun f hf => by
        simp only [List.mem_singleton] at hf
        subst hf
        decide +kernel) (x := .str "pc") (by simp [deviceVar]) clause_name
    · rw [hc rfl] at hfound
      have e : lang.namer.agg count ([cust].reverse.map fun q => (false, q)) ([column sess sessId].map DFeat.name) (some (lang.namer.trans (eq (.str "pc")) [deviceVar.name])) =
        "count(sessions.id WHERE equal_scalar(device = pc))" := by decide +kernel
      rw [e] at hfound
      exact hfound (free (.inl rfl) rfl (by decide))


/-- Sessions: negated lengths, running sums by customer, and the age of the customer. -/
def negate : Prim := transP "Negate" "negate" ["Numeric"]
def cum : Prim := transP "CumSum" "cum_sum" ["Numeric"]
def sargs : DfsArgs := { args with target := "sessions", aggs := [], wheres := [], trans := [negate], groupbys := [cum], maxDepth := 1 }
theorem runs_sessions : outcome (dfsFeatures lang eq [custs, sess] rels sargs) =
    some ["cid", "device", "len", "negate(len)", "cum_sum(len by cid)", "customers.age"] := by decide +kernel

example : ∃ r, dfsFeatures lang eq [custs, sess] rels sargs = .ok r ∧ (∃ f ∈ r, f.name = "negate(len)") ∧
    (∃ f ∈ r, f.name = "cum_sum(len by cid)") ∧ ∃ f ∈ r, f.name = "customers.age" := by
  obtain ⟨r, hr, _⟩ := outcome_ok runs_sessions
  have built : ∀ v ∈ sess.vars, BuiltFor lang eq [custs, sess] rels sargs sargs.target (column sess v) := fun v hv =>
    C61_built_columns lang eq _ _ sargs lang_perm rfl hr ((usable rfl rfl).1 v hv) (.inl rfl)
  have one : ∀ v ∈ sess.vars, OneOutput lang (column sess v) := by
    intro v hv
    refine ⟨rfl, not_slice ?_⟩
    simp only [sess, List.mem_cons, List.not_mem_nil, or_false] at hv
    rcases hv with rfl | rfl | rfl | rfl <;> decide +kernel
  have key : ∀ p : Prim, ∀ f ∈ [column sess len], Offered lang (BuiltFor lang eq [custs, sess] rels sargs sargs.target) f ∧ NothingIgnored sargs p f ∧
      NotTransformed f ∧ ∀ n, DepChain (sargs.seeds.map DFeat.uname) f n → WithinLimit [custs, sess] sargs.maxDepth (n + 1) := by
    intro p f hf
    simp only [List.mem_singleton] at hf
    subst hf
    refine ⟨.inl ⟨built len (by simp [sess, len]), one len (by simp [sess, len])⟩, ⟨⟨rfl, rfl⟩, fun g hg => ?_⟩,
      ⟨fun q => ⟨(by intro h; cases h), (by intro h; cases h)⟩, (fun i hi => by cases hi), (fun q hq => by cases hq), fun q hq => by cases hq⟩, fun n hn => ?_⟩
    · rw [uses_column hg]
      exact ⟨by simp [sargs, args], fun _ vs hvs => by cases hvs⟩
    · rw [chain_column hn]
      exact ⟨by decide, by decide⟩
  refine ⟨r, hr, ?_, ?_, ?_⟩
  · obtain ⟨u, hu, _, hfound⟩ := C61_transform_partial lang eq _ _ sargs lang_perm (by simp [sargs, args]) rfl hr (p := negate) (by simp [sargs])
      (t := [column sess len]) (by simp) ⟨rfl, trivial⟩ (List.pairwise_singleton _ _) (key negate) (by
        rintro ⟨q, h⟩
        cases h _ List.mem_cons_self)
    rw [List.perm_singleton.mp hu, show lang.namer.trans negate ([column sess len].map DFeat.name) = "negate(len)" by decide +kernel] at hfound
    exact hfound (free (.inr rfl) rfl (by decide))
  · obtain ⟨u, hu, _, hfound⟩ := C61_groupby_partial lang eq _ _ sargs lang_perm (by simp [sargs, args]) rfl hr (p := cum) (by simp [sargs])
      (t := [column sess len]) (by simp) ⟨rfl, trivial⟩ (List.pairwise_singleton _ _) (key cum) (g := column sess cidVar)
      ⟨.inl ⟨built cidVar (by simp [sess, cidVar]), one cidVar (by simp [sess, cidVar])⟩, fun q => ⟨(by intro h; cases h), (by intro h; cases h)⟩, (fun i hi => by cases hi), by decide +kernel, by decide +kernel, fun n hn => by
        rw [chain_column hn]
        exact ⟨by decide, by decide⟩⟩ (.inr fun q hq => by cases hq)
    rw [List.perm_singleton.mp hu, show lang.namer.groupby cum ([column sess len].map DFeat.name) (column sess cidVar).name = "cum_sum(len by cid)" by decide +kernel] at hfound
    exact hfound (free (.inr rfl) rfl (by decide))
  · have hb := C61_built_columns lang eq _ _ sargs lang_perm rfl hr ((usable rfl rfl).2 age (by simp [custs, age]))
      (.inr (.inr ⟨by decide, by simp [sargs, args], .inl rfl, cust, by simp [rels, cust], rfl, rfl⟩))
    obtain ⟨g, hg, hn⟩ := C61_direct_partial lang eq _ _ sargs lang_perm (by simp [sargs, args]) rfl hr (q := cust) (by simp [rels, cust]) rfl
      (by simp [sargs, args]) (.inl rfl) (.inl ⟨hb, rfl, not_slice (by decide +kernel)⟩) (by
        rintro ⟨q, hq, v', t', hk, h⟩
        simp only [List.mem_singleton] at hq
        subst hq
        cases hk
        rcases h with ⟨h, _⟩ | ⟨_, h⟩
        · exact absurd h (by simp [column, DFeat.entity, custs, cust])
        · exact absurd h (by decide)) (fun n hn => by
        rw [chain_column hn]
        exact ⟨by decide, by decide⟩) (free (.inr rfl) rfl (by decide +kernel))
    exact ⟨g, hg, hn.trans (by decide +kernel)⟩

/-- An aggregation of two outputs, the second of which is negated. -/
def ends2 : Prim := { aggP "Ends" "ends" "Numeric" with outputs := 2 }
def eargs : DfsArgs := { args with aggs := [ends2], trans := [negate], wheres := [], maxDepth := 3 }
def endsLen : DFeat := .mk (.agg [(false, cust)] ends2) "customers" "ends(sessions.len)" [column sess len] []
def lastLen : DFeat := .mk (.slice 1) "customers" "ends(sessions.len)[1]" [endsLen] []
theorem runs_ends : outcome (dfsFeatures lang eq [custs, sess] rels eargs) =
    some ["age", "ends(sessions.len)", "negate(age)", "ends(sessions.negate(len))", "negate(ends(sessions.len)[0])", "negate(ends(sessions.len)[1])"] := by decide +kernel

/-- Names of outputs tell the feature and the number. -/
theorem slice_name {g g' : DFeat} {i j : Nat} (h : lang.namer.slice g' j = lang.namer.slice g i) : g'.name = g.name ∧ j = i := by
  have h : (g'.name ++ "[" ++ toString j ++ "]").toList.reverse = (g.name ++ "[" ++ toString i ++ "]").toList.reverse := congrArg (fun s => s.toList.reverse) h
  simp only [String.toList_append, List.reverse_append, show "]".toList = [']'] from rfl, show "[".toList = ['['] from rfl, List.reverse_singleton, List.singleton_append,
    List.cons.injEq, true_and] at h
  have hd : ∀ n : Nat, ∀ c ∈ (toString n).toList.reverse, c ≠ '[' := by
    intro n c hc he
    subst he
    have hc : '[' ∈ (Nat.repr n).toList := List.mem_reverse.mp hc
    rw [Nat.toList_repr] at hc
    exact absurd (Nat.isDigit_of_mem_toDigits (by decide) (by decide) hc) (by decide)
  have key : ∀ (x y u w : List Char), (∀ c ∈ x, c ≠ '[') → (∀ c ∈ y, c ≠ '[') → x ++ '[' :: u = y ++ '[' :: w → x = y ∧ u = w := by
    intro x
    induction x with
    | nil =>
      intro y u w _ hy h
      cases y with
      | nil => exact ⟨rfl, (List.cons.inj h).2⟩
      | cons c y => exact absurd (List.cons.inj h).1.symm (hy c List.mem_cons_self)
    | cons c x ih =>
      intro y u w hx hy h
      cases y with
      | nil => exact absurd (List.cons.inj h).1 (hx c List.mem_cons_self)
      | cons c' y =>
        obtain ⟨rfl, h'⟩ := List.cons.inj h
        obtain ⟨rfl, h2⟩ := ih y u w (fun c h => hx c (List.mem_cons_of_mem _ h)) (fun c h => hy c (List.mem_cons_of_mem _ h)) h'
        exact ⟨rfl, h2⟩
  obtain ⟨h1, h2⟩ := key _ _ _ _ (hd j) (hd i) h
  refine ⟨String.toList_injective (List.reverse_inj.mp h2), ?_⟩
  have h1 : Nat.repr j = Nat.repr i := String.toList_injective (List.reverse_inj.mp h1)
  have h3 := Nat.toNat?_repr j
  rw [h1, Nat.toNat?_repr] at h3
  exact (Option.some.inj h3).symm

/-- Is this the aggregation of two outputs? -/
def isEnds : DFeat → Bool
  | .mk k e n [.mk k' e' n' [] []] [] => k == .agg [(false, cust)] ends2 && e == "customers" && n == "ends(sessions.len)" &&
      (k' == .identity "len" "Numeric" && e' == "sessions" && n' == "len")
  | _ => false
theorem isEnds_eq {f : DFeat} (h : isEnds f = true) : f = endsLen := by
  unfold isEnds at h
  split at h
  · simp only [Bool.and_eq_true, beq_iff_eq] at h
    obtain ⟨⟨⟨rfl, rfl⟩, rfl⟩, ⟨rfl, rfl⟩, rfl⟩ := h
    rfl
  · cases h

example : ∃ r, dfsFeatures lang eq [custs, sess] rels eargs = .ok r ∧ ∃ f ∈ r, f.name = "negate(ends(sessions.len)[1])" := by
  obtain ⟨r, hr, hnames⟩ := outcome_ok runs_ends
  have hmem : endsLen ∈ r := by
    have h : (match dfsFeatures lang eq [custs, sess] rels eargs with | .ok r => r.any isEnds | .error _ => false) = true := by decide +kernel
    rw [hr] at h
    obtain ⟨f, hf, he⟩ := List.any_eq_true.mp h
    exact isEnds_eq he ▸ hf
  have hbuilt := C61_returned_built lang eq _ _ eargs lang_perm rfl hr
  have huses : ∀ g, DepUses [] lastLen g → g = lastLen ∨ g = endsLen ∨ g = column sess len := by
    intro g hg
    cases hg with
    | self => exact .inl rfl
    | dep _ hd hg =>
      simp only [lastLen, DFeat.bases, DFeat.wh, List.append_nil, List.mem_singleton] at hd
      subst hd
      cases hg with
      | self => exact .inr (.inl rfl)
      | dep _ hd hg =>
        simp only [endsLen, DFeat.bases, DFeat.wh, List.append_nil, List.mem_singleton] at hd
        subst hd
        exact .inr (.inr (uses_column hg))
  have hoff : Offered lang (BuiltFor lang eq [custs, sess] rels eargs eargs.target) lastLen := by
    refine .inr ⟨endsLen, 1, hbuilt _ hmem, ⟨by decide, by decide, ?_, fun g' j h => slice_name h⟩, fun g' hg' he => ?_⟩
    · show lastLen = .mk _ _ (lang.namer.slice endsLen 1) _ _
      rw [show lang.namer.slice endsLen 1 = "ends(sessions.len)[1]" by decide +kernel]
      rfl
    · obtain ⟨S, st, fs, h1, h2, h3, h4⟩ := hg'
      have h : (match configure lang eq [custs, sess] rels eargs with
          | .ok S => (match allFeatures S eargs.target (effectiveDepth S eargs.maxDepth) with
            | .ok st => st.feats.all fun p => p.2.all fun f => f.name != "ends(sessions.len)[1]"
            | .error _ => false)
          | .error _ => false) = true := by decide +kernel
      rw [h1] at h
      dsimp only at h
      rw [h2] at h
      have := List.all_eq_true.mp (List.all_eq_true.mp h _ h3) _ h4
      rw [he] at this
      exact absurd this (by decide)
  refine ⟨r, hr, ?_⟩
  obtain ⟨u, hu, _, hfound⟩ := C61_transform_partial lang eq _ _ eargs lang_perm (by simp [eargs, args]) rfl hr (p := negate) (by simp [eargs])
    (t := [lastLen]) (by simp) ⟨by decide +kernel, trivial⟩ (List.pairwise_singleton _ _) (fun f hf => by
      simp only [List.mem_singleton] at hf
      subst hf
      refine ⟨hoff, ⟨⟨rfl, rfl⟩, fun g hg => ⟨by simp [eargs, args], fun _ vs hvs => by cases hvs⟩⟩, ⟨fun q => ⟨(by intro h; cases h), (by intro h; cases h)⟩, fun i hi b hb => ?_, fun q hq => ?_, fun q hq => by cases hq⟩,
        fun n hn => ?_⟩
      · simp only [lastLen, DFeat.bases, List.mem_singleton] at hb
        subst hb
        exact ⟨_, _, rfl⟩
      · cases hq with
        | slice _ _ _ _ hq => cases hq; rfl
      · have : n ≤ 2 := by
          cases hn with
          | nil => omega
          | cons _ _ hd hn =>
            simp only [lastLen, DFeat.bases, DFeat.wh, List.append_nil, List.mem_singleton] at hd
            subst hd
            cases hn with
            | nil => omega
            | cons _ _ hd hn =>
              simp only [endsLen, DFeat.bases, DFeat.wh, List.append_nil, List.mem_singleton] at hd
              subst hd
              rw [chain_column hn]
              omega
        exact ⟨fun _ => (show ((n + 1 : Nat) : Int) ≤ 3 by omega), fun h => absurd h (by decide)⟩) (by
      rintro ⟨q, h⟩
      cases h _ List.mem_cons_self)
  rw [List.perm_singleton.mp hu, show lang.namer.trans negate ([lastLen].map DFeat.name) = "negate(ends(sessions.len)[1])" by decide +kernel] at hfound
  exact hfound (free (.inl rfl) rfl (by decide))

/-- A seed feature with the name of a column replaces the column. -/
def older : DFeat := .mk (.trans negate) "customers" "age" [column custs age] []
theorem runs_seeded : outcome (dfsFeatures lang eq [custs, sess] rels { args with seeds := [older], aggs := [], trans := [], wheres := [] }) = some ["age"] := by
  decide +kernel
example : ∃ r, dfsFeatures lang eq [custs, sess] rels { args with seeds := [older], aggs := [], trans := [], wheres := [] } = .ok r ∧
    ∃ g ∈ r, g.name = "age" ∧ ∀ v t, g.kind ≠ .identity v t := by
  obtain ⟨r, hr, _⟩ := outcome_ok runs_seeded
  obtain ⟨⟨g, hg, hn⟩, h2⟩ := C61_seeds lang eq _ _ { args with seeds := [older], aggs := [], trans := [], wheres := [] } lang_perm rfl hr (f := older) (by simp) rfl
    (by
      intro g hg v t hk
      simp only [List.mem_singleton] at hg
      subst hg
      cases hk)
  refine ⟨r, hr, g, hg, hn, ?_⟩
  rcases h2 g hg hn with h | h
  · simp only [List.mem_singleton] at h
    subst h
    intro v t hk
    cases hk
  · exact h

/-! ## What is not found -/

/-- Customers in a city. -/
def located : DEnt := ⟨"customers", "id", [⟨"id", "id", "Index", []⟩, ⟨"city", "city", "Id", []⟩]⟩

/-- Regions have districts and, found through the streets of the districts, shops. -/
def landE : List DEnt :=
  [⟨"regions", "id", [⟨"id", "id", "Index", []⟩]⟩, ⟨"districts", "id", [⟨"id", "id", "Index", []⟩, ⟨"region", "region", "Id", []⟩]⟩,
   ⟨"streets", "id", [⟨"id", "id", "Index", []⟩, ⟨"district", "district", "Id", []⟩]⟩,
   ⟨"shops", "id", [⟨"id", "id", "Index", []⟩, ⟨"street", "street", "Id", []⟩, ⟨"region", "region", "Id", []⟩]⟩,
   ⟨"sales", "id", [⟨"id", "id", "Index", []⟩, ⟨"shop", "shop", "Id", []⟩, ⟨"price", "price", "Numeric", []⟩]⟩]
def regionDistricts : Relationship := ⟨"regions", "id", "districts", "region"⟩
def regionShops : Relationship := ⟨"regions", "id", "shops", "region"⟩
def others : List Relationship := [⟨"districts", "id", "streets", "district"⟩, ⟨"streets", "id", "shops", "street"⟩, ⟨"shops", "id", "sales", "shop"⟩]
def landArgs : DfsArgs := { args with target := "regions", aggs := [sum], trans := [], wheres := [], maxDepth := 3 }

end DfsExample
open DfsExample

/-- C61: what is found depends on the order in which the relationships were added. With `max_depth = 3` the sales of the shops of a
region are summed, a feature of depth one; with two relationships swapped no feature at all is returned. The shops are then visited
first through districts and streets, where the budget for going on to the sales is spent, and never again. -/
theorem C61_order_violated :
    (regionDistricts :: regionShops :: others).Perm (regionShops :: regionDistricts :: others) ∧
    (∃ r, dfsFeatures lang eq landE (regionShops :: regionDistricts :: others) landArgs = .ok r ∧ ∃ f ∈ r, f.name = "sum(shops.sales.price)") ∧
    dfsFeatures lang eq landE (regionDistricts :: regionShops :: others) landArgs = .ok [] := by
  refine ⟨.swap _ _ _, ?_, ?_⟩
  · have h : (outcome (dfsFeatures lang eq landE (regionShops :: regionDistricts :: others) landArgs)).map (fun l => l.contains "sum(shops.sales.price)") = some true := by
      decide +kernel
    obtain ⟨l, hl, hc⟩ := Option.map_eq_some_iff.mp h
    obtain ⟨r, hr, rfl⟩ := outcome_ok hl
    rw [List.contains_iff_mem, List.mem_map] at hc
    exact ⟨r, hr, hc⟩
  · have h : outcome (dfsFeatures lang eq landE (regionDistricts :: regionShops :: others) landArgs) = some [] := by decide +kernel
    obtain ⟨r, hr, hn⟩ := outcome_ok h
    rw [hr, List.map_eq_nil_iff.mp hn]

/-- C61: a group-by primitive is not applied to a column grouped by a feature of a parent, although both are within the limit and the comment
at the test asks for a direct feature among the inputs or as the one to group by. -/
theorem C61_groupby_violated :
    ∃ r, dfsFeatures lang eq [located, sess] rels { sargs with maxDepth := 3 } = .ok r ∧ (∃ f ∈ r, f.name = "len") ∧ (∃ f ∈ r, f.name = "customers.city") ∧
      cum ∈ sargs.groupbys ∧ ¬∃ f ∈ r, f.name = "cum_sum(len by customers.city)" := by
  have h : outcome (dfsFeatures lang eq [located, sess] rels { sargs with maxDepth := 3 }) =
      some ["cid", "device", "len", "negate(len)", "cum_sum(len by cid)", "customers.city"] := by decide +kernel
  obtain ⟨r, hr, hn⟩ := outcome_ok h
  refine ⟨r, hr, ?_, ?_, by simp [sargs], ?_⟩
  · exact List.mem_map.mp (by rw [hn]; simp)
  · exact List.mem_map.mp (by rw [hn]; simp)
  · intro h
    have := List.mem_map.mpr h
    rw [hn] at this
    simp at this

end FT
