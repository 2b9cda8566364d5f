import Verif.Lemmas.DfsProps
namespace FT
open FT.Spec

mutual
theorem ddeps_mem {x : DFeat} : ∀ {f : DFeat}, x ∈ f.deepDeps → ∃ d ∈ f.bases ++ f.wh, DepUses [] d x
  | .mk k e n bs ws, h => by
    simp only [DFeat.deepDeps, List.mem_append] at h
    simp only [DFeat.bases, DFeat.wh, List.mem_append]
    rcases h with (h | h) | (h | h)
    · exact ⟨x, .inl h, .self (by simp)⟩
    · exact ⟨x, .inr h, .self (by simp)⟩
    · obtain ⟨d, hd, hu⟩ := ddepsL_mem (l := bs) h; exact ⟨d, .inl hd, hu⟩
    · obtain ⟨d, hd, hu⟩ := ddepsL_mem (l := ws) h; exact ⟨d, .inr hd, hu⟩
theorem ddepsL_mem {x : DFeat} : ∀ {l : List DFeat}, x ∈ DFeat.deepDepsL l → ∃ d ∈ l, DepUses [] d x
  | [], h => by simp [DFeat.deepDepsL] at h
  | d :: l, h => by
    simp only [DFeat.deepDepsL, List.mem_append] at h
    rcases h with h | h
    · obtain ⟨d', hd', hu⟩ := ddeps_mem (f := d) h
      exact ⟨d, List.mem_cons_self, .dep (by simp) hd' hu⟩
    · obtain ⟨d', hd', hu⟩ := ddepsL_mem (l := l) h
      exact ⟨d', List.mem_cons_of_mem _ hd', hu⟩
end

theorem deepDeps_subL {x d : DFeat} {l : List DFeat} (hd : d ∈ l) (h : x ∈ d.deepDeps) : x ∈ DFeat.deepDepsL l := by
  induction l with
  | nil => cases hd
  | cons a l ih =>
    simp only [DFeat.deepDepsL, List.mem_append]
    rcases List.mem_cons.mp hd with rfl | hd
    · exact .inl h
    · exact .inr (ih hd)

theorem deepDeps_of_uses {f x : DFeat} (h : DepUses [] f x) : x = f ∨ x ∈ f.deepDeps := by
  induction h with
  | self => exact .inl rfl
  | @dep f d g _ hd _ ih =>
    right
    obtain ⟨k, e, n, bs, ws⟩ := f
    simp only [DFeat.bases, DFeat.wh] at hd
    simp only [DFeat.deepDeps, List.mem_append]
    rcases ih with rfl | ih
    · exact .inl (List.mem_append.mp hd)
    · rcases List.mem_append.mp hd with hd | hd
      · exact .inr (.inl (deepDeps_subL hd ih))
      · exact .inr (.inr (deepDeps_subL hd ih))

theorem uses_iff {f x : DFeat} : DepUses [] f x ↔ x ∈ f.deepDeps ++ [f] := by
  rw [List.mem_append, List.mem_singleton]
  constructor
  · intro h; exact (deepDeps_of_uses h).symm
  · rintro (h | rfl)
    · obtain ⟨d, hd, hu⟩ := ddeps_mem h
      exact .dep (by simp) hd hu
    · exact .self (by simp)

theorem entityAllowed_iff {c : Choice} {e : String} : entityAllowed c e = true ↔ EntityPermitted c.incEnts c.ignEnts e := by
  unfold entityAllowed EntityPermitted
  cases c.incEnts <;> cases c.ignEnts <;> simp <;> split <;> simp_all

theorem depAllowed_iff {c : Choice} {f : DFeat} : depAllowed c f = true ↔ Permitted c.incVars c.ignVars c.incEnts c.ignEnts f := by
  unfold depAllowed Permitted varsFor
  by_cases hi : f.isIdentity = true
  · have hk := isIdentity_iff.mp hi
    have hk' : ¬∀ v t, f.kind ≠ .identity v t := fun h => by obtain ⟨v, t, e⟩ := hk; exact h v t e
    simp only [hi, if_true, hk, forall_const, hk', false_implies, and_true]
    cases h1 : c.incVars.bind fun l => l.lookup f.entity with
    | some l => simp [h1]
    | none =>
      cases h2 : c.ignVars.bind fun l => l.lookup f.entity with
      | some l => simp [h1, h2, ← entityAllowed_iff]
      | none => simp [h1, h2, ← entityAllowed_iff]
  · have hk : ¬∃ v t, f.kind = .identity v t := fun h => hi (isIdentity_iff.mpr h)
    have hk' : ∀ v t, f.kind ≠ .identity v t := fun v t e => hk ⟨v, t, e⟩
    rw [if_neg hi, entityAllowed_iff]
    simp [hk']

theorem variableFilter_iff {sub : String → String → Bool} {f : DFeat} {o : POption} :
    variableFilter sub f o false = true ↔ InputPermitted o f := by
  unfold variableFilter InputPermitted
  simp only [Bool.false_and, Bool.false_eq_true, if_false, List.all_eq_true]
  constructor
  · intro h g hg; exact depAllowed_iff.mp (h g (uses_iff.mp hg))
  · intro h g hg; exact depAllowed_iff.mpr (h g (uses_iff.mpr hg))

theorem variableFilter_groupby_iff {sub : String → String → Bool} {f : DFeat} {o : POption} :
    variableFilter sub f o true = true ↔ sub f.vtype "Discrete" = true ∧ GroupPermitted o f := by
  unfold variableFilter GroupPermitted
  by_cases hd : sub f.vtype "Discrete" = true
  · simp only [hd, Bool.not_true, Bool.and_false, Bool.false_eq_true, if_false, List.all_eq_true, true_and]
    constructor
    · intro h g hg; exact depAllowed_iff.mp (h g (uses_iff.mp hg))
    · intro h g hg; exact depAllowed_iff.mpr (h g (uses_iff.mpr hg))
  · simp [hd]

theorem zip_all_iff {P : DFeat → POption → Bool} : ∀ {t : List DFeat} {os : List POption},
    ((t.zip os).all fun (f, o) => P f o) = true ↔ ∀ (i : Nat) o b, os[i]? = some o → t[i]? = some b → P b o = true
  | [], os => by simp
  | f :: t, [] => by simp
  | f :: t, o :: os => by
    simp only [List.zip_cons_cons, List.all_cons, Bool.and_eq_true]
    constructor
    · rintro ⟨h1, h2⟩ i o' b ho hb
      cases i with
      | zero => simp at ho hb; rw [← ho, ← hb]; exact h1
      | succ i => exact zip_all_iff.mp h2 i o' b (by simpa using ho) (by simpa using hb)
    · intro h
      exact ⟨h 0 o f rfl rfl, zip_all_iff.mpr fun i o' b ho hb => h (i + 1) o' b (by simpa using ho) (by simpa using hb)⟩

theorem validMatch_iff' {sub : String → String → Bool} {os : List POption} {g : Bool} {t : List DFeat} :
    validMatch sub os g t = true ↔ MatchPermitted (fun o b => variableFilter sub b o g = true) os t := by
  unfold validMatch MatchPermitted
  split
  · simp
  · next o => simp
  · next h1 h2 =>
    refine (zip_all_iff (P := fun f o => variableFilter sub f o g)).trans ?_
    constructor
    · intro h
      exact ⟨h1, fun o ho => absurd ho (h2 o), fun _ => h⟩
    · rintro ⟨_, _, h⟩
      refine h ?_
      match os, h1, h2 with
      | [], h1, _ => exact absurd rfl h1
      | [o], _, h2 => exact absurd rfl (h2 o)
      | _ :: _ :: _, _, _ => simp

theorem Spec.MatchPermitted.imp {P Q : POption → DFeat → Prop} {os : List POption} {t : List DFeat} (h : MatchPermitted P os t)
    (hpq : ∀ o b, P o b → Q o b) : MatchPermitted Q os t :=
  ⟨h.1, fun o ho b hb => hpq o b (h.2.1 o ho b hb), fun hl i o b ho hb => hpq o b (h.2.2 hl i o b ho hb)⟩

theorem Spec.MatchPermitted.congr {P Q : POption → DFeat → Prop} {os : List POption} {t : List DFeat} (hpq : ∀ o b, P o b ↔ Q o b) :
    MatchPermitted P os t ↔ MatchPermitted Q os t :=
  ⟨fun h => h.imp fun o b => (hpq o b).mp, fun h => h.imp fun o b => (hpq o b).mpr⟩

/-- Mapping the options. -/
theorem Spec.MatchPermitted.of_map {P Q : POption → DFeat → Prop} {os : List POption} {F : POption → POption} {t : List DFeat}
    (h : MatchPermitted P (os.map F) t) (hpq : ∀ o ∈ os, ∀ b, P (F o) b → Q o b) : MatchPermitted Q os t := by
  refine ⟨fun e => h.1 (by rw [e]; rfl), fun o ho b hb => ?_, fun hl i o b ho hb => ?_⟩
  · subst ho
    exact hpq o (by simp) b (h.2.1 (F o) rfl b hb)
  · refine hpq o (List.mem_of_getElem? ho) b (h.2.2 (by simpa using hl) i (F o) b ?_ hb)
    simp [ho]

/-! ## Reconciling with the global options -/

theorem lookup_dictPut {d : VarDict} {k : String} {v : List String} (e : String) :
    (dictPut d k v).lookup e = if e = k then some v else d.lookup e := by
  unfold dictPut
  split
  · next h =>
    induction d with
    | nil => simp at h
    | cons p d ih =>
      obtain ⟨a, b⟩ := p
      simp only [List.map_cons]
      by_cases ha : a = k
      · subst ha
        simp only [if_true, List.lookup_cons]
        by_cases he : e = a
        · subst he; simp
        · have : (e == a) = false := by simpa using he
          simp only [this, if_neg he]
          by_cases hk : (d.any fun p => p.1 == a) = true
          · rw [ih hk, if_neg he]
          · have : (d.map fun p => if p.1 = a then (a, v) else p) = d := by
              refine (List.map_congr_left fun p hp => ?_).trans (List.map_id d)
              rw [if_neg]
              · rfl
              · intro e'
                exact hk (List.any_eq_true.mpr ⟨p, hp, by simpa using e'⟩)
            rw [this]
      · have hk : (d.any fun p => p.1 == k) = true := by
          simpa [ha] using h
        simp only [if_neg ha, List.lookup_cons]
        by_cases he : e = a
        · subst he; simp [ha]
        · have : (e == a) = false := by simpa using he
          simp only [this]
          exact ih hk
  · next h =>
    rw [List.lookup_append]
    by_cases he : e = k
    · subst he
      have : d.lookup e = none := by
        rw [List.lookup_eq_none_iff]
        intro p hp
        have : ¬(p.1 == e) = true := fun h' => h (List.any_eq_true.mpr ⟨p, hp, h'⟩)
        simp at this ⊢
        exact fun h => this h.symm
      rw [this]
      simp
    · have : (e == k) = false := by simpa using he
      simp [List.lookup_cons, this, he]

theorem addGlobalVars_mono {incl : List String} {gV : VarDict} : ∀ {d : VarDict} {e : String} {vs : List String}, d.lookup e = some vs →
    ∃ ws, (addGlobalVars incl gV d).lookup e = some ws ∧ ∀ v ∈ vs, v ∈ ws := by
  unfold addGlobalVars
  induction gV with
  | nil => intro d e vs h; exact ⟨vs, h, fun v hv => hv⟩
  | cons p gV ih =>
    intro d e vs h
    simp only [List.foldl_cons]
    cases hl : d.lookup p.1 with
    | some us =>
      simp only
      by_cases he : e = p.1
      · subst he
        have : us = vs := by rw [hl] at h; exact Option.some.inj h
        subst this
        obtain ⟨ws, h1, h2⟩ := ih (d := dictPut d p.1 (us ++ p.2)) (e := p.1) (vs := us ++ p.2) (by rw [lookup_dictPut, if_pos rfl])
        exact ⟨ws, h1, fun v hv => h2 v (List.mem_append_left _ hv)⟩
      · exact ih (by rw [lookup_dictPut, if_neg he]; exact h)
    | none =>
      simp only
      split
      · exact ih h
      · have he : e ≠ p.1 := fun e' => by rw [e', hl] at h; cases h
        exact ih (by rw [lookup_dictPut, if_neg he]; exact h)

theorem addGlobalVars_global {incl : List String} {gV : VarDict} : ∀ {d : VarDict} {e : String} {vs : List String}, (e, vs) ∈ gV → e ∉ incl →
    ∃ ws, (addGlobalVars incl gV d).lookup e = some ws ∧ ∀ v ∈ vs, v ∈ ws := by
  induction gV with
  | nil => intro d e vs h; cases h
  | cons p gV ih =>
    intro d e vs h hi
    rcases List.mem_cons.mp h with rfl | h
    · unfold addGlobalVars
      simp only [List.foldl_cons]
      cases hl : d.lookup e with
      | some us =>
        obtain ⟨ws, h1, h2⟩ := addGlobalVars_mono (incl := incl) (gV := gV) (d := dictPut d e (us ++ vs)) (e := e) (vs := us ++ vs) (by rw [lookup_dictPut, if_pos rfl])
        exact ⟨ws, h1, fun v hv => h2 v (List.mem_append_right _ hv)⟩
      | none =>
        simp only
        rw [if_neg (by simpa using hi)]
        exact addGlobalVars_mono (incl := incl) (gV := gV) (d := dictPut d e vs) (e := e) (vs := vs) (by rw [lookup_dictPut, if_pos rfl])
    · unfold addGlobalVars
      simp only [List.foldl_cons]
      exact ih h hi

theorem userOptions_some {user : List (PKey × List POption)} {p : Prim} {os : List POption} :
    userOptions user p = some os ↔ UserOptions user p os := by
  unfold userOptions UserOptions
  cases h : user.lookup (.inst p) with
  | some x => simp
  | none => simp

theorem userOptions_none {user : List (PKey × List POption)} {p : Prim} : userOptions user p = none ↔ NoOptions user p := by
  unfold userOptions NoOptions
  cases h : user.lookup (.inst p) with
  | some x => simp
  | none => simp

theorem mem_includedEntities {os : List POption} {e : String} : e ∈ includedEntities os ↔ IncludesEntity os e := by
  unfold includedEntities IncludesEntity
  rw [List.mem_flatMap]
  constructor
  · rintro ⟨o, ho, he⟩
    refine ⟨o, ho, ?_⟩
    rcases List.mem_append.mp he with he | he
    · cases h : o.includeEntities with
      | none => simp [h] at he
      | some l => simp [h] at he; exact .inl ⟨l, rfl, he⟩
    · cases h : o.includeVars with
      | none => simp [h] at he
      | some d => simp [h] at he; exact .inr ⟨d, rfl, he⟩
  · rintro ⟨o, ho, ⟨l, h, he⟩ | ⟨d, h, vs, he⟩⟩
    · exact ⟨o, ho, List.mem_append_left _ (by simp [h, he])⟩
    · exact ⟨o, ho, List.mem_append_right _ (by simp [h]; exact ⟨vs, he⟩)⟩

theorem mem_includedVar {user : List (PKey × List POption)} {prims : List Prim} {e v : String} :
    includedVar user prims e v = true ↔ ∃ p ∈ prims, ∃ os, UserOptions user p os ∧ IncludesVar os e v := by
  unfold includedVar IncludesVar
  simp only [List.any_eq_true]
  constructor
  · rintro ⟨p, hp, o, ho, q, hq, h⟩
    cases hu : userOptions user p with
    | none => simp [hu] at ho
    | some os =>
      simp only [hu, Option.getD_some] at ho
      cases hv : o.includeVars with
      | none => simp [hv] at hq
      | some d =>
        simp only [hv, Option.getD_some] at hq
        simp only [Bool.and_eq_true, beq_iff_eq, List.contains_iff_mem] at h
        exact ⟨p, hp, os, userOptions_some.mp hu, o, ho, d, hv, q.2, h.1 ▸ hq, h.2⟩
  · rintro ⟨p, hp, os, hu, o, ho, d, hv, vs, hq, h⟩
    refine ⟨p, hp, o, by rw [userOptions_some.mpr hu]; exact ho, (e, vs), by rw [hv]; exact hq, by simp [h]⟩

/-- The reconciled option is at least as strict as the user's, and as the global ones for what the options do not include. -/
theorem reconciled_permitted {gE : List String} {gV : VarDict} {os : List POption} {o : POption} (ho : o ∈ os) {f : DFeat}
    (h : Permitted o.includeVars (some (addGlobalVars (includedEntities os) gV o.ignoreVars)) o.includeEntities
      (some (o.ignoreEntities ++ gE.filter fun e => !(includedEntities os).contains e)) f) :
    Permitted o.includeVars (some o.ignoreVars) o.includeEntities (some o.ignoreEntities) f ∧
      (f.entity ∈ gE → IncludesEntity os f.entity) ∧
      (∀ vs, (∃ v t, f.kind = .identity v t) → (f.entity, vs) ∈ gV → f.name ∈ vs → IncludesEntity os f.entity) := by
  obtain ⟨h1, h2, h3⟩ := h
  have hE : ∀ e, EntityPermitted o.includeEntities (some (o.ignoreEntities ++ gE.filter fun e => !(includedEntities os).contains e)) e →
      EntityPermitted o.includeEntities (some o.ignoreEntities) e ∧ (e ∈ gE → IncludesEntity os e) := by
    rintro e ⟨p1, p2⟩
    have := p2 _ rfl
    simp only [List.mem_append, not_or] at this
    refine ⟨⟨p1, fun l hl => ?_⟩, fun he => ?_⟩
    · cases hl; exact this.1
    · refine mem_includedEntities.mp (Classical.byContradiction fun hn => this.2 ?_)
      exact List.mem_filter.mpr ⟨he, by simpa using hn⟩
  have hlisted : ∀ l, o.includeVars.bind (fun d => d.lookup f.entity) = some l → IncludesEntity os f.entity := by
    intro l hl
    cases hv : o.includeVars with
    | none => simp [hv] at hl
    | some d =>
      simp [hv] at hl
      exact ⟨o, ho, .inr ⟨d, hv, l, lookup_mem_pair hl⟩⟩
  refine ⟨⟨h1, fun hk hn => ?_, fun hk => (hE _ (h3 hk)).1⟩, fun he => ?_, fun vs hk hvs hn => ?_⟩
  · obtain ⟨a, b⟩ := h2 hk hn
    refine ⟨fun l hl hmem => ?_, (hE _ b).1⟩
    simp only [Option.bind_some] at hl
    obtain ⟨ws, w1, w2⟩ := addGlobalVars_mono (incl := includedEntities os) (gV := gV) hl
    exact a ws (by simpa using w1) (w2 _ hmem)
  · by_cases hk : ∃ v t, f.kind = .identity v t
    · cases hb : o.includeVars.bind (fun d => d.lookup f.entity) with
      | some l => exact hlisted l hb
      | none => exact (hE _ (h2 hk hb).2).2 he
    · exact (hE _ (h3 fun v t e => hk ⟨v, t, e⟩)).2 he
  · cases hb : o.includeVars.bind (fun d => d.lookup f.entity) with
    | some l => exact hlisted l hb
    | none =>
      refine mem_includedEntities.mp (Classical.byContradiction fun hni => ?_)
      obtain ⟨ws, w1, w2⟩ := addGlobalVars_global (d := o.ignoreVars) hvs hni
      exact (h2 hk hb).1 ws (by simpa using w1) (w2 _ hn)

/-! ## Stacking -/

theorem madeBy_prim {p : Prim} {f : DFeat} (h : MadeBy p f) : f.prim = p := by
  induction h with
  | agg => simp [DFeat.prim]
  | trans => simp [DFeat.prim]
  | groupby => simp [DFeat.prim]
  | slice i e n ws _ ih => simpa [DFeat.prim] using ih

theorem prim_behind {f : DFeat} (h : Proper f) : Behind f.prim f := by
  induction h with
  | identity v t e n => exact .inr ⟨fun q hq => (by cases hq), by simp [DFeat.prim]⟩
  | direct r e n _ _ => exact .inr ⟨fun q hq => (by cases hq), by simp [DFeat.prim]⟩
  | slice i e n _ ih =>
    rcases ih with ih | ⟨h1, h2⟩
    · exact .inl (by simpa [DFeat.prim] using MadeBy.slice i e n [] ih)
    · refine .inr ⟨fun q hq => ?_, by simpa [DFeat.prim] using h2⟩
      cases hq with
      | slice _ _ _ _ h => exact h1 q h
  | trans p e n _ _ => exact .inl (by simpa [DFeat.prim] using MadeBy.trans e n _ _)
  | groupby p e n _ _ => exact .inl (by simpa [DFeat.prim] using MadeBy.groupby e n _ _)
  | agg path p e n _ _ _ _ => exact .inl (by simpa [DFeat.prim] using MadeBy.agg path e n _ _)

theorem behind_iff {p : Prim} {f : DFeat} (h : Proper f) : Behind p f ↔ f.prim = p := by
  constructor
  · rintro (h' | ⟨h1, h2⟩)
    · exact madeBy_prim h'
    · rcases prim_behind h with h' | ⟨_, h'⟩
      · exact absurd h' (h1 _)
      · rw [h', h2]
  · rintro rfl; exact prim_behind h

theorem isA_iff {p : Prim} {l : List String} : isA p l = true ↔ ∃ c ∈ l, c ∈ p.supers := by
  unfold isA; simp

theorem stackAllowed_iff {p : Prim} {f : DFeat} : stackAllowed p f = true ↔
    (p.stackOnSelf = some true ∧ p.cls ∈ f.prim.supers) ∨ p.stackOn = none ∨ (∃ l, p.stackOn = some l ∧ ∃ c ∈ l, c ∈ f.prim.supers) ∨
      f.prim.baseOf = none ∨ ∃ l, f.prim.baseOf = some l ∧ p.cls ∈ l := by
  have h1 : isA f.prim [p.cls] = true ↔ p.cls ∈ f.prim.supers := by rw [isA_iff]; simp
  unfold stackAllowed
  split
  · next h =>
    simp only [Bool.and_eq_true, beq_iff_eq, h1] at h
    simp [h]
  · next h =>
    simp only [Bool.and_eq_true, beq_iff_eq, h1] at h
    split
    · next hn => simp [hn]
    · next l hl =>
      split
      · next ha => rw [isA_iff] at ha; simp [hl, ha]
      · next ha =>
        rw [isA_iff] at ha
        split
        · next hb => simp [hb]
        · next l' hl' =>
          simp only [hl, hl', List.contains_iff_mem]
          constructor
          · intro hc; simp [hc]
          · rintro (h' | h' | ⟨x, h', h''⟩ | h' | ⟨x, h', h''⟩)
            · exact absurd h' h
            · cases h'
            · cases h'; exact absurd h'' ha
            · cases h'
            · cases h'; exact h''

end FT
