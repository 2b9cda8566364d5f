import Verif.Lemmas.Groups
import Verif.Lemmas.PlanNodes2
/-! # Paths of the plan and link columns -/
namespace FT
open Spec

/-- Every edge of a path is a relationship of the entity set, leading on from where the path has got to. -/
def PathOk (env : Env) (e : String) (p : List Edge) : Prop :=
  ∀ p' b r rest, p = p' ++ (b, r) :: rest → RelOk env r ∧ (if b then r.childE else r.parentE) = pathEnd e p'

theorem PathOk.nil (env : Env) (e : String) : PathOk env e [] := by
  intro p' b r rest h; simp at h

theorem PathOk.of_prefix {env e p q} (h : PathOk env e q) (hp : p <+: q) : PathOk env e p := by
  obtain ⟨s, rfl⟩ := hp
  intro p' b r rest hs
  exact h p' b r (rest ++ s) (by rw [hs]; simp)

theorem PathOk.append {env e p q} (h : PathOk env e p) (hq : PathOk env (pathEnd e p) q) : PathOk env e (p ++ q) := by
  intro p' b r rest hs
  rcases List.append_eq_append_iff.mp hs with ⟨a, rfl, h2⟩ | ⟨a, rfl, h2⟩
  · have := hq a b r rest h2
    refine ⟨this.1, ?_⟩
    rw [this.2]
    cases a with
    | nil => simp [pathEnd]
    | cons x a => obtain ⟨b', r'⟩ := x; rw [pathEnd_append _ _ _ (by simp), pathEnd_cons, pathEnd_cons e]; cases b' <;> rfl
  · cases a with
    | nil =>
      simp only [List.nil_append] at h2
      have := hq [] b r rest (by rw [← h2]; rfl)
      simpa [pathEnd] using this
    | cons x a =>
      simp only [List.cons_append, List.cons.injEq] at h2
      obtain ⟨rfl, rfl⟩ := h2
      exact h p' b r a rfl

theorem pathOk_down {env : Env} {a path b} (h : PathDown a path b) (hr : ∀ r ∈ path, RelOk env r) :
    PathOk env a (path.map fun r => (false, r)) := by
  induction h with
  | last r =>
    intro p' b r' rest hs
    cases p' with
    | nil => simp at hs; obtain ⟨⟨rfl, rfl⟩, _⟩ := hs; exact ⟨hr r (by simp), rfl⟩
    | cons x p' => simp at hs
  | @step r rs e' h ih =>
    intro p' b r' rest hs
    cases p' with
    | nil => simp at hs; obtain ⟨⟨rfl, rfl⟩, _⟩ := hs; exact ⟨hr r (by simp), rfl⟩
    | cons x p' =>
      simp only [List.map_cons, List.cons_append, List.cons.injEq] at hs
      obtain ⟨rfl, hs⟩ := hs
      have := ih (fun r hr' => hr r (by simp [hr'])) p' b r' rest hs
      rw [pathEnd_cons]
      exact this

/-- The path of a feature leads on from its entity. -/
theorem pathOk_feature {env : Env} {f : Feat} (hw : WellFormed env f) (hs : ∀ n, f.kind ≠ .slice n) : PathOk env f.entity f.path := by
  have hw' := hw.2.2.2
  cases hk : f.kind with
  | identity v => rw [path_identity hk]; exact .nil _ _
  | trans v => rw [path_trans hk]; exact .nil _ _
  | groupby v => rw [path_groupby hk]; exact .nil _ _
  | slice n => exact absurd hk (hs n)
  | direct r =>
    simp only [hk] at hw'
    rw [path_direct hk]
    intro p' b r' rest hs
    cases p' with
    | nil => simp at hs; obtain ⟨⟨rfl, rfl⟩, _⟩ := hs; exact ⟨hw'.1, by simp [pathEnd, hw'.2.1]⟩
    | cons x p' => simp at hs
  | agg path prim prev u =>
    simp only [hk] at hw'
    obtain ⟨hr, _, _, _, ⟨ce, hpd, _⟩, _⟩ := hw'
    rw [path_agg hk]
    exact pathOk_down hpd hr

section
variable {env : Env} {targets : List Feat} {G : Given} {e0 : String} (R : RegularFor env targets G e0)
include R

theorem planned_path {p f full} (h : Planned targets G.names p f full) : PathOk env e0 p := by
  induction h with
  | target _ _ => exact .nil _ _
  | @dep p f full d b hp hd he _ ih =>
    refine PathOk.append ih ?_
    rw [← planned_entity R hp]
    exact pathOk_feature (R.wf _ hp.neededBy) (planned_not_slice R hp)

theorem atNode_path {p f} (h : AtNode targets G.names p f) : PathOk env e0 p := by
  rcases h with ⟨_, h⟩ | h
  · exact planned_path R h
  · cases h with
    | @dep p f full d b hp hd he _ =>
      refine PathOk.append (planned_path R hp) ?_
      rw [← planned_entity R hp]
      exact pathOk_feature (R.wf _ hp.neededBy) (planned_not_slice R hp)

/-- A node of the plan lies on the way to a planned feature. -/
theorem node_planned {p : List Edge} (h : hasNode p (buildTrie targets G.trie)) (hne : p ≠ []) :
    ∃ q f, AtNode targets G.names (p ++ q) f := by
  rcases hasNode_buildTrie targets G.trie p h with h | ⟨p0, g, full, hp, hpre⟩
  · exact absurd h hne
  · by_cases hg : g.path = []
    · rw [hg, List.append_nil] at hpre
      obtain ⟨q, rfl⟩ := hpre
      exact ⟨q, g, .inl ⟨full, hp⟩⟩
    · have hb : ∃ d, d ∈ g.bases := by
        have hw := (R.wf g hp.neededBy).2.2.2
        cases hk : g.kind with
        | identity v => exact absurd (path_identity hk) hg
        | trans v => exact absurd (path_trans hk) hg
        | groupby v => exact absurd (path_groupby hk) hg
        | slice n => exact absurd hk (planned_not_slice R hp n)
        | direct r =>
          simp only [hk] at hw
          obtain ⟨_, _, _, b, hb, _⟩ := hw
          exact ⟨b, by rw [hb]; simp⟩
        | agg path a b c =>
          simp only [hk] at hw
          exact List.exists_mem_of_ne_nil _ hw.2.2.1
      obtain ⟨d, hd⟩ := hb
      obtain ⟨b, hb⟩ := unslice_some (R.wf d (neededBy_dep hp.neededBy (.inl hd)))
      have := atNode_dep hp (.inl hd) hb
      obtain ⟨q, hq⟩ := hpre
      exact ⟨q, b, by rw [hq]; exact this⟩

theorem node_path {p : List Edge} (h : hasNode p (buildTrie targets G.trie)) : PathOk env e0 p := by
  cases p with
  | nil => exact .nil _ _
  | cons a p =>
    obtain ⟨q, f, hp⟩ := node_planned R h (by simp)
    exact (atNode_path R hp).of_prefix (List.prefix_append _ _)

theorem node_entity {p : List Edge} (h : hasNode p (buildTrie targets G.trie)) : EntityOk env (pathEnd e0 p) := by
  rcases List.eq_nil_or_concat p with rfl | ⟨p', ⟨b, r⟩, rfl⟩
  · exact R.entityOk
  · have := (node_path R h) p' b r [] (by simp)
    simp only [List.concat_eq_append] at h
    rw [List.concat_eq_append, pathEnd_append _ _ _ (by simp)]
    cases b
    · exact this.1.child
    · exact this.1.parent

omit R in
/-- Where a feature is planned there is a node. -/
theorem planned_node {p f full} (h : Planned targets G.names p f full) : hasNode p (buildTrie targets G.trie) := by
  exact hasNode_prefix (List.prefix_append _ _) (hasNode_planned h)
end

theorem linksFrom_append (rels : List Relationship) (plan : List Edge → NodeVal) : ∀ (q : List Edge) (p : List Edge) (ls : List Link) (e : Edge),
    linksFrom rels plan p ls (q ++ [e]) = linkStep rels (plan (p ++ q)).need (linksFrom rels plan p ls q) e
  | [], p, ls, e => by simp [linksFrom]
  | a :: q, p, ls, e => by
    simp only [List.cons_append, linksFrom]
    rw [linksFrom_append rels plan q (p ++ [a])]
    simp

theorem linksAt_snoc (env : Env) (targets : List Feat) (G : Given) (p : List Edge) (e : Edge) :
    linksOf env targets G (p ++ [e]) =
      linkStep env.rels (planAt (buildTrie targets G.trie) p).need (linksOf env targets G p) e := by
  rw [linksOf, linksFrom_append]; rfl

theorem linksAt_nil (env : Env) (targets : List Feat) (G : Given) : linksOf env targets G [] = [] := rfl

section
variable {env : Env} {targets : List Feat} {G : Given} {e0 : String} (R : RegularFor env targets G e0)
include R

omit R in
/-- Links have a chain of relationships starting at the entity of the node. -/
theorem link_chain : ∀ (n : Nat) (p : List Edge), p.length = n → PathOk env e0 p →
    ∀ l ∈ linksOf env targets G p, (∃ r rs, l.2.1 = r :: rs ∧ r.childE = pathEnd e0 p) ∧ (∀ r ∈ l.2.1, EntityOk env r.childE) ∧
      (¬ 1 < l.2.1.length → l.1 ∈ env.keyCols (pathEnd e0 p)) := by
  intro n
  induction n with
  | zero =>
    intro p hp _ l hl
    have : p = [] := List.eq_nil_of_length_eq_zero hp
    subst this
    cases hl
  | succ n ih =>
    intro p hp hok l hl
    rcases List.eq_nil_or_concat p with rfl | ⟨p', ⟨b, r⟩, rfl⟩
    · simp at hp
    · simp only [List.concat_eq_append] at *
      have hr := hok p' b r [] rfl
      rw [linksAt_snoc] at hl
      rw [pathEnd_append _ _ _ (by simp)]
      cases b with
      | true => simp [linkStep] at hl
      | false =>
        simp only [linkStep, List.mem_append, List.mem_map, List.mem_cons, List.not_mem_nil, or_false] at hl
        rcases hl with ⟨l', hl', rfl⟩ | rfl
        · obtain ⟨⟨r', rs', h1, _⟩, h2, _⟩ := ih p' (by simp at hp; omega) (hok.of_prefix (List.prefix_append _ _)) l' hl'
          refine ⟨⟨r, l'.2.1, rfl, rfl⟩, ?_, ?_⟩
          · intro x hx
            simp only [List.mem_cons] at hx
            rcases hx with rfl | hx
            · exact hr.1.child
            · exact h2 x hx
          · intro hlen; exfalso; apply hlen; simp [h1]
        · refine ⟨⟨r, [], rfl, rfl⟩, ?_, fun _ => hr.1.childKey⟩
          intro x hx; simp at hx; subst hx; exact hr.1.child

/-- Link names are distinct. -/
theorem link_nodup : ∀ (n : Nat) (p : List Edge), p.length = n → hasNode p (buildTrie targets G.trie) →
    ((linksOf env targets G p).map Prod.fst).Nodup := by
  intro n
  induction n with
  | zero =>
    intro p hp _
    have : p = [] := List.eq_nil_of_length_eq_zero hp
    subst this
    simp [linksAt_nil]
  | succ n ih =>
    intro p hp hnode
    rcases List.eq_nil_or_concat p with rfl | ⟨p', ⟨b, r⟩, rfl⟩
    · simp at hp
    · simp only [List.concat_eq_append] at *
      have hok := node_path R hnode
      have hr := hok p' b r [] rfl
      have ih := ih p' (by simp at hp; omega) (hasNode_prefix (List.prefix_append _ _) hnode)
      obtain ⟨q, f, hpl⟩ := node_planned R hnode (by simp)
      have hkey := R.linkNotKey (p' ++ [(b, r)]) q f hpl
      rw [linksAt_snoc] at hkey
      rw [linksAt_snoc]
      rw [pathEnd_append _ _ _ (by simp)] at hkey
      cases b with
      | true => simp [linkStep]
      | false =>
        have hch := link_chain (targets := targets) (G := G) p'.length p' rfl (hok.of_prefix (List.prefix_append _ _))
        simp only [linkStep, List.map_append, List.map_map, List.map_cons, List.map_nil]
        rw [List.nodup_append]
        refine ⟨?_, by simp, ?_⟩
        · have : (Prod.fst ∘ fun l : Link => ((r.parentName? env.rels).getD "" ++ "." ++ l.1, r :: l.2.1, l.2.2 && (planAt (buildTrie targets G.trie) p').need)) =
              (fun s => (r.parentName? env.rels).getD "" ++ "." ++ s) ∘ Prod.fst := rfl
          rw [this, ← List.map_map]
          refine List.Pairwise.map _ ?_ ih
          intro a b hab heq
          apply hab
          have := congrArg String.toList heq
          simp only [String.toList_append] at this
          exact String.toList_inj.mp (List.append_cancel_left this)
        · intro a ha c hc hac
          simp only [List.mem_cons, List.not_mem_nil, or_false] at hc
          obtain ⟨l, hl, rfl⟩ := List.mem_map.mp ha
          obtain ⟨⟨r', rs', h1, _⟩, _⟩ := hch l hl
          refine hkey ((r.parentName? env.rels).getD "" ++ "." ++ l.1, r :: l.2.1, l.2.2 && (planAt (buildTrie targets G.trie) p').need) ?_ ?_ ?_
          · simp only [linkStep, List.mem_append, List.mem_map]
            exact .inl ⟨l, hl, rfl⟩
          · simp [h1]
          · have : (r.parentName? env.rels).getD "" ++ "." ++ l.1 = r.childV := by
              rw [← hc, ← hac]; rfl
            rw [show (((r.parentName? env.rels).getD "" ++ "." ++ l.1, r :: l.2.1, l.2.2 && (planAt (buildTrie targets G.trie) p').need) : Link).1 =
              (r.parentName? env.rels).getD "" ++ "." ++ l.1 from rfl, this]
            exact hr.1.childKey

omit R in
/-- The column an aggregation groups by is a link. -/
theorem link_variable (path : List Relationship) (hne : path ≠ [])
    (hn : ∀ r ∈ path.tail, r.parentName? env.rels = some r.parentE) (p : List Edge) :
    ∃ flag, (relationshipVariableId path, path.reverse, flag) ∈ linksOf env targets G (p ++ path.map fun r => (false, r)) ∧
      ((∀ q, p <+: q → q <+: p ++ path.map (fun r => (false, r)) → (planAt (buildTrie targets G.trie) q).need = true) → flag = true) := by
  obtain ⟨r, rs, rfl⟩ : ∃ r rs, path = r :: rs := by
    cases path with
    | nil => exact absurd rfl hne
    | cons r rs => exact ⟨r, rs, rfl⟩
  simp only [List.tail_cons] at hn
  -- along the rest of the path
  have key : ∀ (rs : List Relationship) (p : List Edge) (name : String) (chain : List Relationship) (flag : Bool),
      (∀ r ∈ rs, r.parentName? env.rels = some r.parentE) → (name, chain, flag) ∈ linksOf env targets G p →
      ∃ flag', (rs.foldl (fun name s => s.parentE ++ "." ++ name) name, rs.reverse ++ chain, flag') ∈
          linksOf env targets G (p ++ rs.map fun r => (false, r)) ∧
        (flag = true → (∀ q, p <+: q → q <+: p ++ rs.map (fun r => (false, r)) →
          (planAt (buildTrie targets G.trie) q).need = true) → flag' = true) := by
    intro rs
    induction rs with
    | nil => intro p name chain flag _ h; exact ⟨flag, by simpa using h, fun h _ => h⟩
    | cons s rs ih =>
      intro p name chain flag hn h
      have hs := hn s (by simp)
      have hstep : (s.parentE ++ "." ++ name, s :: chain, flag && (planAt (buildTrie targets G.trie) p).need) ∈
          linksOf env targets G (p ++ [(false, s)]) := by
        rw [linksAt_snoc]
        simp only [linkStep, List.mem_append, List.mem_map]
        exact .inl ⟨_, h, by rw [hs]; rfl⟩
      obtain ⟨flag', h1, h2⟩ := ih (p ++ [(false, s)]) _ _ _ (fun r hr => hn r (by simp [hr])) hstep
      refine ⟨flag', ?_, ?_⟩
      · simpa [List.append_assoc] using h1
      · intro hf hneed
        apply h2
        · rw [hf, hneed p (List.prefix_refl _) (List.prefix_append _ _)]; rfl
        · intro q hq hq'
          refine hneed q (List.IsPrefix.trans (List.prefix_append _ _) hq) ?_
          simpa [List.append_assoc] using hq'
  have h0 : (r.childV, [r], true) ∈ linksOf env targets G (p ++ [(false, r)]) := by
    rw [linksAt_snoc]; simp [linkStep]
  obtain ⟨flag, h1, h2⟩ := key rs (p ++ [(false, r)]) r.childV [r] true hn h0
  refine ⟨flag, ?_, ?_⟩
  · simpa [List.append_assoc, relationshipVariableId] using h1
  · intro hneed
    apply h2 rfl
    intro q hq hq'
    refine hneed q (List.IsPrefix.trans (List.prefix_append _ _) hq) ?_
    simpa [List.append_assoc] using hq'
end

end FT
