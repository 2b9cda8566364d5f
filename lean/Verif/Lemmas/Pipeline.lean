import Verif.Spec.Pipeline
import Verif.Model.Pipeline
import Verif.Lemmas.DfsRead
import Verif.Props.CfmLeak
/-! # Lemmas about `dfs` on an entity set -/
namespace FT
open Spec

theorem get?_mem {es : ESet} {e : String} {x : Entity} (h : es.get? e = some x) : x ∈ es.entities ∧ x.id = e := by
  unfold ESet.get? at h
  exact ⟨List.mem_of_find?_eq_some h, by simpa using List.find?_some h⟩

/-- The same schema looks the same to the synthesis. -/
theorem Spec.SameSchema.synth {T : VarClasses} {es es' : ESet} (h : SameSchema es es') :
    es'.entities.map (synthEnt T) = es.entities.map (synthEnt T) := by
  have := congrArg (List.map fun p : String × String × List Var =>
    (⟨p.1, p.2.1, p.2.2.map fun v => ⟨v.id, v.name.getD v.id, T.cls v.type, v.interesting⟩⟩ : DEnt)) h.entities
  simp only [List.map_map, Function.comp_def] at this
  exact this

/-- What is shown depends on the time and the window only. -/
theorem sameAt_env {env env' : Env} (h1 : env'.timeLast = env.timeLast) (h2 : env'.window = env.window) (h3 : env'.includeCutoff = env.includeCutoff)
    {x y : Option Ent} (h : SameAt env x y) : SameAt env' x y := by
  rcases h with h | ⟨a, b, ha, hb, h⟩
  · exact .inl h
  · refine .inr ⟨a, b, ha, hb, h.index, h.timeIndex, h.secondary, h.cols, ?_⟩
    have hv : ∀ ent, Visible env' ent = Visible env ent := by
      intro ent; funext r; unfold Visible; rw [h1, h2, h3]
    rw [hv, hv, h1]
    exact h.rows

theorem find_proj {α β γ : Type} (f : α → β × γ) (p : β → Bool) : ∀ (l l' : List α), l'.map f = l.map f →
    ((l'.find? fun x => p (f x).1).map f = (l.find? fun x => p (f x).1).map f) := by
  intro l l' h
  have := congrArg (List.find? fun y : β × γ => p y.1) h
  simpa only [List.find?_map, Function.comp_def] using this

/-- Key columns are the same as well. -/
theorem Spec.SameSchema.keys {T : VarClasses} {es es' : ESet} (h : SameSchema es es') (e : String) :
    ((es'.get? e).map (keyVars T)).getD [] = ((es.get? e).map (keyVars T)).getD [] := by
  have h1 := find_proj (fun x : Entity => (x.id, x.index, x.vars)) (fun i => i == e) es.entities es'.entities h.entities
  have h2 := congrArg (Option.map fun p : String × String × List Var => (p.2.2.filter fun v => T.key v.type).map Var.id) h1
  simp only [Option.map_map, Function.comp_def] at h2
  exact congrArg (fun o => Option.getD o []) h2

/-- The environment of the other entity set is that of the first with other data. -/
theorem Spec.SameSchema.env {T : VarClasses} {es es' : ESet} (h : SameSchema es es') (env : Env) :
    calcEnv T es' env = { calcEnv T es env with ent := fun e => (es'.get? e).map calcEnt } := by
  unfold calcEnv
  rw [h.rels]
  have : (fun e => ((es'.get? e).map (keyVars T)).getD []) = fun e => ((es.get? e).map (keyVars T)).getD [] := funext h.keys
  rw [this]

theorem made_trans {f g k : DFeat} (h : MadeOf f g) (h' : MadeOf g k) : MadeOf f k := by
  unfold MadeOf at *
  induction h with
  | self => exact h'
  | dep h1 h2 _ ih => exact .dep h1 h2 (ih h')

/-- A comparison with an interesting value of a variable. -/
def IsClause (S : Synth) (target : String) (M : Option Int) (f : DFeat) : Prop :=
  ∃ g x v, Built S target M g ∧ v ∈ interestingOf S x ∧ f = clauseOf S g v

/-- What a seed feature is made of. -/
def OfSeed (S : Synth) (f : DFeat) : Prop := ∃ s ∈ S.seeds, MadeOf s f

/-- What the results of a synthesis are made of. -/
def SynthPart (S : Synth) (target : String) (M : Option Int) (f : DFeat) : Prop := Built S target M f ∨ IsClause S target M f ∨ OfSeed S f

theorem made_part {S : Synth} {target : String} {M : Option Int} {f g : DFeat} (h : MadeOf f g) : SynthPart S target M f → SynthPart S target M g := by
  unfold MadeOf at h
  induction h with
  | self => exact id
  | @dep f d g _ hd _ ih =>
    intro hf
    apply ih
    rcases hf with hf | ⟨c, x, v, hc, _, rfl⟩ | ⟨s, hs, hf⟩
    · cases hf with
      | identity => simp [identityOf, DFeat.bases, DFeat.wh] at hd
      | seed _ hf => exact .inr (.inr ⟨f, hf, .dep (by simp) hd (.self (by simp))⟩)
      | slice b i hb =>
        simp only [sliceOf, DFeat.bases, DFeat.wh, List.append_nil, List.mem_singleton] at hd
        exact .inl (hd ▸ hb)
      | trans e n p t _ _ _ ht =>
        simp only [DFeat.bases, DFeat.wh, List.append_nil] at hd
        exact .inl (ht d hd)
      | groupby e n p t k _ _ _ ht hk =>
        simp only [DFeat.bases, DFeat.wh, List.append_nil, List.mem_append, List.mem_singleton] at hd
        rcases hd with hd | rfl
        · exact .inl (ht d hd)
        · exact .inl hk
      | agg e c n path p t _ _ _ _ _ _ ht =>
        simp only [DFeat.bases, DFeat.wh, List.append_nil] at hd
        exact .inl (ht d hd)
      | aggWhere e c n path p t w b x v _ _ _ _ _ _ ht _ _ _ _ _ hb _ hv hw =>
        simp only [DFeat.bases, DFeat.wh, List.mem_append, List.mem_singleton] at hd
        rcases hd with hd | rfl
        · exact .inl (ht d hd)
        · exact .inr (.inl ⟨b, x, v, hb, hv, hw⟩)
      | direct r b _ hb =>
        simp only [mkDirect, DFeat.bases, DFeat.wh, List.append_nil, List.mem_singleton] at hd
        exact .inl (hd ▸ hb)
    · simp only [clauseOf, DFeat.bases, DFeat.wh, List.append_nil, List.mem_singleton] at hd
      exact .inl (hd ▸ hc)
    · exact .inr (.inr ⟨s, hs, made_trans hf (.dep (by simp) hd (.self (by simp)))⟩)

/-- What the calculator needs are the features something is made of. -/
theorem needed_made {R : Reading} {L : Lang} {rels : List Relationship} {r : List DFeat} {g : Feat} (h : NeededBy (r.map (readFeat R L rels)) g) :
    ∃ f ∈ r, ∃ d, MadeOf f d ∧ g = readFeat R L rels d := by
  obtain ⟨a, ha, hn⟩ := h
  obtain ⟨f, hf, rfl⟩ := List.mem_map.mp ha
  refine ⟨f, hf, ?_⟩
  have step : ∀ {f : DFeat} {d : Feat}, d ∈ (readFeat R L rels f).bases ∨ d ∈ (readFeat R L rels f).wh →
      ∃ f', f' ∈ f.bases ++ f.wh ∧ d = readFeat R L rels f' := by
    intro f d hd
    rw [read_bases, read_wh] at hd
    rcases hd with hd | hd
    · obtain ⟨f', h1, rfl⟩ := List.mem_map.mp hd
      exact ⟨f', by simp [h1], rfl⟩
    · obtain ⟨f', h1, rfl⟩ := List.mem_map.mp hd
      exact ⟨f', by simp [h1], rfl⟩
  rcases hn with rfl | hu
  · exact ⟨f, .self (by simp), rfl⟩
  · have : ∀ (a g : Feat), Uses [] a g → ∀ f, a = readFeat R L rels f → ∃ d, MadeOf f d ∧ g = readFeat R L rels d := by
      intro a g hu
      induction hu with
      | direct hd _ =>
        rintro f rfl
        obtain ⟨f', h1, rfl⟩ := step hd
        exact ⟨f', .dep (by simp) h1 (.self (by simp)), rfl⟩
      | deep hd _ _ ih =>
        rintro f rfl
        obtain ⟨f', h1, h2⟩ := step hd
        obtain ⟨d, h3, h4⟩ := ih f' h2
        exact ⟨d, .dep (by simp) h1 h3, h4⟩
    exact this _ g hu f rfl

/-- The relationships of the parts are those of the entity set. -/
theorem part_follows {S : Synth} {target : String} {M : Option Int} (hseeds : ∀ s ∈ S.seeds, ∀ g, MadeOf s g → FollowsOnly S.rels g) {f : DFeat}
    (h : SynthPart S target M f) : FollowsOnly S.rels f := by
  rcases h with hf | ⟨c, x, v, hc, _, rfl⟩ | ⟨s, hs, hf⟩
  · cases hf with
    | identity => exact ⟨fun _ h => by simp [identityOf, DFeat.kind] at h, fun _ _ h => by simp [identityOf, DFeat.kind] at h⟩
    | seed _ hf => exact hseeds f hf f (.self (by simp))
    | slice => exact ⟨fun _ h => by simp [sliceOf, DFeat.kind] at h, fun _ _ h => by simp [sliceOf, DFeat.kind] at h⟩
    | trans => exact ⟨fun _ h => by simp [DFeat.kind] at h, fun _ _ h => by simp [DFeat.kind] at h⟩
    | groupby => exact ⟨fun _ h => by simp [DFeat.kind] at h, fun _ _ h => by simp [DFeat.kind] at h⟩
    | agg e c n path p t _ _ _ _ _ hpath =>
      refine ⟨fun _ h => by simp [DFeat.kind] at h, fun _ _ h x hx => ?_⟩
      cases h
      exact (agg_path hpath).2.2 _ (List.mem_map_of_mem hx)
    | aggWhere e c n path p t w f x v _ _ _ _ _ hpath =>
      refine ⟨fun _ h => by simp [DFeat.kind] at h, fun _ _ h x hx => ?_⟩
      cases h
      exact (agg_path hpath).2.2 _ (List.mem_map_of_mem hx)
    | direct r f hr =>
      refine ⟨fun _ h => ?_, fun _ _ h => by simp [mkDirect, DFeat.kind] at h⟩
      cases h
      exact hr
  · exact ⟨fun _ h => by simp [clauseOf, DFeat.kind] at h, fun _ _ h => by simp [clauseOf, DFeat.kind] at h⟩
  · exact hseeds s hs f hf

theorem follows_kind {R : Reading} {L : Lang} {rels : List Relationship} {f : DFeat} (h : FollowsOnly rels f) :
    ∀ x ∈ (readFeat R L rels f).kind.path, x.2 ∈ rels := by
  rw [read_kind]
  cases hk : f.kind with
  | direct r => intro x hx; simp only [readKind, Kind.path, List.mem_singleton] at hx; subst hx; exact h.1 r hk
  | agg path p =>
    intro x hx
    simp only [readKind, Kind.path] at hx
    obtain ⟨r, hr, rfl⟩ := List.mem_map.mp hx
    obtain ⟨y, hy, rfl⟩ := List.mem_map.mp hr
    exact h.2 path p hk y hy
  | _ => simp [readKind, Kind.path]

theorem follows_path {R : Reading} {L : Lang} {rels : List Relationship} {f : DFeat} (h : ∀ g, MadeOf f g → FollowsOnly rels g) :
    ∀ x ∈ (readFeat R L rels f).path, x.2 ∈ rels := by
  intro x hx
  unfold Feat.path at hx
  split at hx
  · next n b bs h1 h2 =>
    have hb : b ∈ f.bases.map (readFeat R L rels) := by rw [← read_bases, h2]; simp
    obtain ⟨d, hd, rfl⟩ := List.mem_map.mp hb
    exact follows_kind (h d (.dep (by simp) (by simp [hd]) (.self (by simp)))) x hx
  · exact follows_kind (h f (.self (by simp))) x hx

/-- The conditions of C60 hold for the features a synthesis builds. -/
theorem dfs_sameUntil {L : Lang} {equalScalar : Val → Prim} {T : VarClasses} {R : Reading} {es es' : ESet} {a : DfsArgs} {c : CfmArgs}
    (hL : ∀ l, (L.setOrder l).Perm l) (hseeds : SeedsFollow es a.seeds) {r : List DFeat} (hr : dfsFeaturesOn L equalScalar T es a = .ok r)
    (hkeys : KeysNotSecondary es) {t : Int} (hsame : SameBefore c.env es es' t) :
    SameUntil { c with env := calcEnv T es c.env, features := r.map (readFeat R L es.rels) } a.target (fun e => (es'.get? e).map calcEnt) t where
  same := fun x => by refine sameAt_env (env := { c.env with timeLast := t }) ?_ ?_ ?_ (hsame x) <;> rfl
  apart := by
    intro x ent h
    simp only [calcEnv] at h
    obtain ⟨y, hy, rfl⟩ := Option.map_eq_some_iff.mp h
    exact hkeys.apart y (get?_mem hy).1
  keys := by
    have never : ∀ e v, (∀ x ∈ es.entities, x.id = e → ∀ s ∈ x.secondary, v ∉ s.2) → NeverHidden (calcEnv T es c.env) e v := by
      intro e v hv ent h
      simp only [calcEnv] at h
      obtain ⟨y, hy, rfl⟩ := Option.map_eq_some_iff.mp h
      exact hv y (get?_mem hy).1 (get?_mem hy).2
    refine ⟨fun ent h => ?_, fun g hg ed hed => ?_⟩
    · intro ent' h'
      have : ent' = ent := by rw [h'] at h; exact Option.some.inj h
      subst this
      simp only [calcEnv] at h
      obtain ⟨y, hy, rfl⟩ := Option.map_eq_some_iff.mp h
      exact hkeys.index y (get?_mem hy).1
    · obtain ⟨S, hc, hb⟩ := dfs_built hL hr
      have hs : ∀ s ∈ S.seeds, ∀ g, MadeOf s g → FollowsOnly S.rels g := by
        rw [hc.rels]
        exact fun s hs => hseeds s ((hc.seeds s).mp hs)
      obtain ⟨f, hf, d, hd, rfl⟩ := needed_made hg
      have : ed.2 ∈ es.rels := by
        rw [← hc.rels] at hed ⊢
        exact follows_path (fun g hg => part_follows hs (made_part (made_trans hd hg) (.inl (hb f hf).1))) ed hed
      exact ⟨never _ _ (hkeys.child _ this), never _ _ (hkeys.parent _ this)⟩

end FT
