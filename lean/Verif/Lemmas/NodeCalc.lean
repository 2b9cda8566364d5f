import Verif.Lemmas.NodePrep
/-! # All nodes of the plan -/
namespace FT
open Spec

/-- The frame stored for a path. -/
def frameAt (dT : DTrie) (q : List Edge) : Option Table := (Trie.nodeAt none q dT).value

theorem frameAt_nil (x : Option Table) (cs : List (Edge × DTrie)) : frameAt (.node x cs) [] = x := rfl
theorem frameAt_cons (x : Option Table) (cs : List (Edge × DTrie)) (k : Edge) (q : List Edge) :
    frameAt (.node x cs) (k :: q) = frameAt ((Trie.child? k cs).getD (Trie.new none)) q := rfl

/-- The ids of the rows of the frame stored for a path. -/
def idsAt (env : Env) (e : String) (dT : DTrie) (q : List Edge) : List Val :=
  ((frameAt dT q).map fun df => df.rows.map fun r => r (indexOf env (pathEnd e q))).getD []

/-- The rows at the end of an edge suffice for the rows at its start. -/
def Covers (env : Env) (I J : List Val) : Edge → Prop
  | (true, r) => ∀ x ∈ I, (worldOf env).cell r.childE x r.childV ∈ (worldOf env).ids r.parentE →
      (worldOf env).cell r.childE x r.childV ∈ J
  | (false, r) => ∀ x ∈ (worldOf env).ids r.childE, (worldOf env).cell r.childE x r.childV ∈ I → x ∈ J

/-- The frame of the asked-for rows is right. -/
def AskedFrame (env : Env) (targets : List Feat) (G : Given) (e0 : String) (p : List Edge) (df : Table) : Prop :=
  (df.rows.map fun r => r (indexOf env (pathEnd e0 p))).Sublist ((worldOf env).ids (pathEnd e0 p)) ∧
  ∃ B, BaseCols env targets G e0 p B ∧
    FrameOk (worldOf env) (meaningAt (worldOf env) G p) (indexOf env (pathEnd e0 p)) (pathEnd e0 p) B (linksOf env targets G p) (fun _ _ => True)
      (AtNode targets G.names p) (df.rows.map fun r => r (indexOf env (pathEnd e0 p))) df

/-- The frame of the full entity is right. -/
def FullFrame (env : Env) (targets : List Feat) (G : Given) (e0 : String) (p : List Edge) (df : Table) : Prop :=
  ∃ B, BaseCols env targets G e0 p B ∧
    FrameOk (worldOf env) (meaningAt (worldOf env) G p) (indexOf env (pathEnd e0 p)) (pathEnd e0 p) B (linksOf env targets G p) (fun l _ => l.2.2 = true)
      (fun f => Planned targets G.names p f true) ((worldOf env).ids (pathEnd e0 p)) df

/-- The table of precalculated values at a path is right. -/
def PreAt (env : Env) (targets : List Feat) (G : Given) (e0 : String) (ids : List Val) (p : List Edge) : Option PreTable → Prop
  | none => ∀ f, ¬ GivenAt targets G.names p f
  | some pt => (∀ c ∈ pt.cols, ∃ f, GivenAt targets G.names p f ∧ c ∈ f.names) ∧
      ∀ f, GivenAt targets G.names p f → (∀ n ∈ f.names, n ∈ pt.cols) ∧
        ∀ x, ReachedUp (worldOf env) ids p x → x ∈ (worldOf env).ids (pathEnd e0 p) →
          ∃ row, pt.rows.lookup x = some row ∧ f.names.map row = G.value f x

/-- What a node gives. -/
structure NodeOut (env : Env) (targets : List Feat) (G : Given) (e0 : String) (p : List Edge) (t : FTrie) (fv : String) (fvals : List Val)
    (dT fT : DTrie) : Prop where
  frames : ∀ q, hasNode q t → ∃ df, frameAt dT q = some df ∧ AskedFrame env targets G e0 (p ++ q) df
  fulls : ∀ q, hasNode q t → (valAt targets G (p ++ q)).need = true → ∃ df, frameAt fT q = some df ∧ FullFrame env targets G e0 (p ++ q) df
  asked : Asked env (pathEnd e0 p) fv fvals (idsAt env (pathEnd e0 p) dT [])
  covers : ∀ q edge, hasNode (q ++ [edge]) t →
    Covers env (idsAt env (pathEnd e0 p) dT q) (idsAt env (pathEnd e0 p) dT (q ++ [edge])) edge

theorem hasNode_append {p q : List Edge} {t : FTrie} (h : hasNode p t) :
    hasNode (p ++ q) t ↔ hasNode q (Trie.nodeAt NodeVal.empty p t) := by
  induction p generalizing t with
  | nil => rfl
  | cons k p ih =>
    obtain ⟨v, cs⟩ := t
    rw [hasNode_cons] at h
    obtain ⟨s, hs, hp⟩ := h
    rw [List.cons_append, hasNode_cons]
    simp only [Trie.nodeAt, hs, Option.getD_some]
    rw [← ih hp]
    constructor
    · rintro ⟨s', hs', h⟩
      cases hs'; exact h
    · intro h; exact ⟨s, rfl, h⟩

theorem up_append (w : World) (a b : List Relationship) (x : Val) : w.up (a ++ b) x = w.up b (w.up a x) := by
  induction a generalizing x with
  | nil => rfl
  | cons r a ih => simp only [List.cons_append, World.up, ih]

/-- The index column of a visible instance is its id. -/
theorem cell_index {env : Env} {e : String} (hok : EntityOk env e) (hw : env.window.all Window.hasNoObservations = true) {x : Val}
    (hx : x ∈ (worldOf env).ids e) : (worldOf env).cell e x (indexOf env e) = x := by
  obtain ⟨r, hr, rfl⟩ := List.mem_map.mp hx
  exact cell_row hok hw hr _

/-- Keeping some of the rows of a frame. -/
theorem FrameOk.restrict {w M idx e B L lok lok' D I I'} {t : Table} (h : FrameOk w M idx e B L lok D I t) (P : Row → Bool)
    (hI : (t.rows.filter P).map (fun r => r idx) = I')
    (hlok : ∀ l ∈ L, ∀ x ∈ I', lok' l x → lok l x) : FrameOk w M idx e B L lok' D I' { t with rows := t.rows.filter P } := by
  refine ⟨hI, ?_, ?_, ?_, h.only⟩
  · intro c hc
    exact ⟨(h.base c hc).1, fun r hr => (h.base c hc).2 r (List.mem_filter.mp hr).1⟩
  · intro l hl
    refine ⟨(h.link l hl).1, fun r hr hk => (h.link l hl).2 r (List.mem_filter.mp hr).1 (hlok l hl _ ?_ hk)⟩
    rw [← hI]
    exact List.mem_map.mpr ⟨r, hr, rfl⟩
  · intro f hf
    exact ⟨(h.done f hf).1, fun r hr => (h.done f hf).2 r (List.mem_filter.mp hr).1⟩

theorem FrameOk.weaken {w M idx e B L lok lok' D D' I} {t : Table} (h : FrameOk w M idx e B L lok D I t)
    (hlok : ∀ l ∈ L, ∀ x ∈ I, lok' l x → lok l x) (hD : ∀ f, D' f ↔ D f) : FrameOk w M idx e B L lok' D' I t := by
  have : D' = D := funext fun f => propext (hD f)
  subst this
  refine ⟨h.ids, h.base, ?_, h.done, h.only⟩
  intro l hl
  refine ⟨(h.link l hl).1, fun r hr hk => (h.link l hl).2 r hr (hlok l hl _ ?_ hk)⟩
  rw [← h.ids]
  exact List.mem_map.mpr ⟨r, hr, rfl⟩

section
variable {env : Env} {targets : List Feat} {G : Given} {e0 : String} (R : RegularFor env targets G e0)
include R

/-- Rows reached by following a path down are asked for. -/
theorem chain_cov {p : List Edge} {t : FTrie} {dT : DTrie}
    (hcov : ∀ q edge, hasNode (q ++ [edge]) t → Covers env (idsAt env (pathEnd e0 p) dT q) (idsAt env (pathEnd e0 p) dT (q ++ [edge])) edge)
    (hsub : ∀ q, hasNode q t → ∀ x ∈ idsAt env (pathEnd e0 p) dT q, x ∈ (worldOf env).ids (pathEnd (pathEnd e0 p) q)) :
    ∀ {a path ce}, PathDown a path ce → (∀ r ∈ path, RelOk env r) → ∀ q, hasNode (q ++ path.map fun r => (false, r)) t →
      pathEnd (pathEnd e0 p) q = a →
      ∀ x ∈ (worldOf env).ids ce, (worldOf env).up path.reverse x ∈ idsAt env (pathEnd e0 p) dT q →
        x ∈ idsAt env (pathEnd e0 p) dT (q ++ path.map fun r => (false, r)) := by
  intro a path ce hpd
  induction hpd with
  | last r =>
    intro hr q hn ha x hx hu
    have := hcov q (false, r) hn
    exact this x hx hu
  | @step r rs ce h ih =>
    intro hr q hn ha x hx hu
    have hrel := hr r (by simp)
    simp only [List.reverse_cons, up_append] at hu
    rw [World.up, World.up] at hu
    have hn1 : hasNode (q ++ [(false, r)]) t := hasNode_prefix (by simp [List.map_cons]) hn
    have hnq : hasNode q t := hasNode_prefix (List.prefix_append _ _) hn
    have hvis : (worldOf env).up rs.reverse x ∈ (worldOf env).ids r.childE := by
      apply Classical.byContradiction
      intro hnot
      rw [cell_absent hnot] at hu
      have := hsub q hnq _ hu
      rw [ha] at this
      exact (visible_ids hrel.parent R.window).2 this
    have hy := hcov q (false, r) hn1 _ hvis hu
    have := ih (fun r' hr' => hr r' (by simp [hr'])) (q ++ [(false, r)]) (by simpa [List.append_assoc] using hn)
      (by rw [pathEnd_append _ _ _ (by simp)]; rfl) x hx hy
    simpa [List.append_assoc] using this

/-- The frames below a node are good for its features. -/
theorem sub_asked {p : List Edge} {t : FTrie} {dT : DTrie} (hn : hasNode p (rootTrie targets G)) (ht : t = Trie.nodeAt NodeVal.empty p (rootTrie targets G))
    (hframes : ∀ q, hasNode q t → q ≠ [] → ∃ df, frameAt dT q = some df ∧ AskedFrame env targets G e0 (p ++ q) df)
    (hroot : ∀ x ∈ idsAt env (pathEnd e0 p) dT [], x ∈ (worldOf env).ids (pathEnd e0 p))
    (hcov : ∀ q edge, hasNode (q ++ [edge]) t → Covers env (idsAt env (pathEnd e0 p) dT q) (idsAt env (pathEnd e0 p) dT (q ++ [edge])) edge)
    (f : Feat) (full : Bool) (hf : Planned targets G.names p f full) (hne : f.path ≠ []) :
    SubFrameOk env (meaningAt (worldOf env) G (p ++ f.path)) (pathEnd e0 p) (idsAt env (pathEnd e0 p) dT []) dT f := by
  have hw := R.wf f hf.neededBy
  have hend : ∀ q, q ≠ [] → pathEnd e0 (p ++ q) = pathEnd (pathEnd e0 p) q := by
    intro q hq
    rw [pathEnd_append _ _ _ hq]
    cases q with
    | nil => exact absurd rfl hq
    | cons a q => obtain ⟨b, r⟩ := a; rw [pathEnd_cons, pathEnd_cons (pathEnd e0 p)]; cases b <;> rfl
  have hnode : hasNode (p ++ f.path) (rootTrie targets G) := hasNode_planned hf
  have hnt : hasNode f.path t := by rw [ht]; exact (hasNode_append hn).mp hnode
  obtain ⟨base, hval, hsl, B, hB, hfr⟩ := hframes f.path hnt hne
  rw [hend _ hne] at hsl hfr
  have hids : idsAt env (pathEnd e0 p) dT f.path = base.rows.map fun r => r (indexOf env (pathEnd (pathEnd e0 p) f.path)) := by
    simp only [idsAt, hval, Option.map_some, Option.getD_some]
  have hE : EntityOk env (pathEnd (pathEnd e0 p) f.path) := by rw [← hend _ hne]; exact node_entity R hnode
  refine ⟨base, hval, hsl, ?_, ?_, ?_, ?_, ?_⟩
  · exact (hfr.base _ (hB.key _ (by rw [hend _ hne]; exact hE.indexKey))).1
  · intro d hd b hb
    exact hfr.done b (atNode_dep hf hd hb)
  · intro ti hti r hr
    refine (hfr.base ti (hB.key _ ?_)).2 r hr
    rw [hend _ hne]
    obtain ⟨ent, hent, _⟩ := hE.get
    simp only [worldOf, hent, Option.bind_some] at hti
    exact hE.timeKey ent ti hent hti
  · intro r hk x hx hc
    rw [← hids]
    rw [path_direct hk] at hnt ⊢
    have := hcov [] (true, r) (by simpa using hnt)
    have hce : r.childE = pathEnd e0 p := by
      have := pathOk_feature hw (planned_not_slice R hf)
      rw [path_direct hk, planned_entity R hf] at this
      exact (this [] true r [] rfl).2
    simp only [Covers, hce, List.nil_append] at this
    exact this x hx hc
  · intro path a b c hk
    have hw' := hw.2.2.2
    simp only [hk] at hw'
    obtain ⟨hrel, hnames, _, _, ⟨ce, hpd, _⟩, _⟩ := hw'
    obtain ⟨flag, hl, _⟩ := link_variable (env := env) (targets := targets) (G := G) path hpd.ne_nil hnames p
    rw [← path_agg hk] at hl
    obtain ⟨hlc, hlr⟩ := hfr.link _ hl
    refine ⟨hlc, fun r hr => hlr r hr trivial, ?_⟩
    intro x hx hu
    rw [← hids]
    have hpe : pathEnd (pathEnd e0 p) f.path = ce := by rw [path_agg hk]; exact hpd.pathEnd _
    have hsub : ∀ q, hasNode q t → ∀ x ∈ idsAt env (pathEnd e0 p) dT q, x ∈ (worldOf env).ids (pathEnd (pathEnd e0 p) q) := by
      intro q hq x hx
      by_cases hq0 : q = []
      · subst hq0; exact hroot x hx
      · obtain ⟨df, hv, hs, _⟩ := hframes q hq hq0
        rw [hend _ hq0] at hs
        simp only [idsAt, hv, Option.map_some, Option.getD_some] at hx
        exact hs.subset hx
    have := chain_cov R hcov hsub (by rw [planned_entity R hf] at hpd; exact hpd) hrel [] (by
        rw [path_agg hk] at hnt; simpa using hnt) rfl x (by rw [hpe] at hx; exact hx) hu
    rw [path_agg hk]
    simpa using this

/-- The same for the full entities. -/
theorem sub_full {p : List Edge} {t : FTrie} {fT : DTrie} (hn : hasNode p (rootTrie targets G)) (ht : t = Trie.nodeAt NodeVal.empty p (rootTrie targets G))
    (hfulls : ∀ q, hasNode q t → q ≠ [] → (valAt targets G (p ++ q)).need = true → ∃ df, frameAt fT q = some df ∧ FullFrame env targets G e0 (p ++ q) df)
    (f : Feat) (hf : Planned targets G.names p f true) (hne : f.path ≠ []) :
    SubFrameOk env (meaningAt (worldOf env) G (p ++ f.path)) (pathEnd e0 p) ((worldOf env).ids (pathEnd e0 p)) fT f := by
  have hw := R.wf f hf.neededBy
  have hend : ∀ q, q ≠ [] → pathEnd e0 (p ++ q) = pathEnd (pathEnd e0 p) q := by
    intro q hq
    rw [pathEnd_append _ _ _ hq]
    cases q with
    | nil => exact absurd rfl hq
    | cons a q => obtain ⟨b, r⟩ := a; rw [pathEnd_cons, pathEnd_cons (pathEnd e0 p)]; cases b <;> rfl
  have hnode : hasNode (p ++ f.path) (rootTrie targets G) := hasNode_planned hf
  have hnt : hasNode f.path t := by rw [ht]; exact (hasNode_append hn).mp hnode
  have hmark : ∀ q, p <+: q → q <+: p ++ f.path → (valAt targets G q).need = true := by
    intro q h1 h2
    exact (plan_spec targets G q).2.2.mpr ⟨p, f, hf, h1, h2⟩
  obtain ⟨base, hval, B, hB, hfr⟩ := hfulls f.path hnt hne (hmark _ (List.prefix_append _ _) (List.prefix_refl _))
  rw [hend _ hne] at hfr
  have hids := hfr.ids
  have hE : EntityOk env (pathEnd (pathEnd e0 p) f.path) := by rw [← hend _ hne]; exact node_entity R hnode
  refine ⟨base, hval, by rw [hids]; exact List.Sublist.refl _, ?_, ?_, ?_, ?_, ?_⟩
  · exact (hfr.base _ (hB.key _ (by rw [hend _ hne]; exact hE.indexKey))).1
  · intro d hd b hb
    rcases planned_dep hf hd hb with this | this
    · simp only [Bool.true_or] at this
      exact hfr.done b this
    · have h1 := (R.givenUp _ _ this).2
      have h2 : (planAt (buildTrie targets G.trie) (p ++ f.path)).need = true := hmark _ (List.prefix_append _ _) (List.prefix_refl _)
      rw [h2] at h1; cases h1
  · intro ti hti r hr
    refine (hfr.base ti (hB.key _ ?_)).2 r hr
    rw [hend _ hne]
    obtain ⟨ent, hent, _⟩ := hE.get
    simp only [worldOf, hent, Option.bind_some] at hti
    exact hE.timeKey ent ti hent hti
  · intro r hk x hx hc
    rw [hids, path_direct hk]
    exact hc
  · intro path a b c hk
    have hw' := hw.2.2.2
    simp only [hk] at hw'
    obtain ⟨hrel, hnames, _, _, ⟨ce, hpd, _⟩, _⟩ := hw'
    obtain ⟨flag, hl, hflag⟩ := link_variable (env := env) (targets := targets) (G := G) path hpd.ne_nil hnames p
    have hft := hflag (by
      intro q h1 h2
      rw [← path_agg hk] at h2
      exact hmark q h1 h2)
    rw [← path_agg hk] at hl
    obtain ⟨hlc, hlr⟩ := hfr.link _ hl
    refine ⟨hlc, fun r hr => hlr r hr hft, ?_⟩
    intro x hx _
    rw [hids]; exact hx


/-- The filter variable and values handed down an edge. -/
def subFv : Edge → String
  | (true, r) => r.parentV
  | (false, r) => r.childV

def subVals (env : Env) (I : List Val) : Edge → List Val
  | (true, r) => I.map fun x => (worldOf env).cell r.childE x r.childV
  | (false, _) => I

omit R in
/-- The results for the children of a node. -/
def KidsOut (env : Env) (targets : List Feat) (G : Given) (e0 : String) (p : List Edge) (I : List Val) (cs : List (Edge × FTrie))
    (kids : List (Edge × DTrie × DTrie)) : Prop :=
  ∀ edge sub, Trie.child? edge cs = some sub → ∃ dT fT,
    Trie.child? edge (kids.map fun k => (k.1, k.2.1)) = some dT ∧ Trie.child? edge (kids.map fun k => (k.1, k.2.2)) = some fT ∧
    NodeOut env targets G e0 (p ++ [edge]) sub (subFv edge) (subVals env I edge) dT fT

omit R in
theorem pathEnd_snoc (e : String) (p q : List Edge) (edge : Edge) : pathEnd (pathEnd e (p ++ [edge])) q = pathEnd (pathEnd e p) (edge :: q) := by
  cases q with
  | nil => obtain ⟨b, r⟩ := edge; rw [pathEnd_append _ _ _ (by simp)]; cases b <;> rfl
  | cons a q => simp only [pathEnd, List.getLast?_cons_cons]; cases h : (a :: q).getLast? with
    | none => simp at h
    | some x => obtain ⟨b, r⟩ := x; cases b <;> rfl

omit R in
theorem idsAt_cons {p : List Edge} {x : Option Table} {ks : List (Edge × DTrie)} {edge : Edge} {dT : DTrie} (h : Trie.child? edge ks = some dT) (q : List Edge) :
    idsAt env (pathEnd e0 p) (.node x ks) (edge :: q) = idsAt env (pathEnd e0 (p ++ [edge])) dT q := by
  simp only [idsAt, frameAt_cons, h, Option.getD_some, pathEnd_snoc]

/-- What the children give, seen from the node. -/
theorem kids_out {p : List Edge} {v : NodeVal} {cs : List (Edge × FTrie)} {kids : List (Edge × DTrie × DTrie)} {I : List Val} {x y : Option Table}
    (hn : hasNode p (rootTrie targets G)) (ht : .node v cs = Trie.nodeAt NodeVal.empty p (rootTrie targets G))
    (hk : KidsOut env targets G e0 p I cs kids) (hI : idsAt env (pathEnd e0 p) (.node x (kids.map fun k => (k.1, k.2.1))) [] = I)
    (hsub : ∀ i ∈ I, i ∈ (worldOf env).ids (pathEnd e0 p)) :
    (∀ q, hasNode q (.node v cs) → q ≠ [] → ∃ df, frameAt (.node x (kids.map fun k => (k.1, k.2.1))) q = some df ∧ AskedFrame env targets G e0 (p ++ q) df) ∧
    (∀ q, hasNode q (.node v cs) → q ≠ [] → (valAt targets G (p ++ q)).need = true →
      ∃ df, frameAt (.node y (kids.map fun k => (k.1, k.2.2))) q = some df ∧ FullFrame env targets G e0 (p ++ q) df) ∧
    (∀ q edge, hasNode (q ++ [edge]) (.node v cs) →
      Covers env (idsAt env (pathEnd e0 p) (.node x (kids.map fun k => (k.1, k.2.1))) q)
        (idsAt env (pathEnd e0 p) (.node x (kids.map fun k => (k.1, k.2.1))) (q ++ [edge])) edge) := by
  refine ⟨?_, ?_, ?_⟩
  · intro q hq hne
    cases q with
    | nil => exact absurd rfl hne
    | cons edge q =>
      rw [hasNode_cons] at hq
      obtain ⟨sub, hs, hq⟩ := hq
      obtain ⟨dT, fT, h1, h2, ho⟩ := hk edge sub hs
      obtain ⟨df, hv, hf⟩ := ho.frames q hq
      refine ⟨df, by rw [frameAt_cons, h1]; exact hv, ?_⟩
      simpa [List.append_assoc] using hf
  · intro q hq hne hneed
    cases q with
    | nil => exact absurd rfl hne
    | cons edge q =>
      rw [hasNode_cons] at hq
      obtain ⟨sub, hs, hq⟩ := hq
      obtain ⟨dT, fT, h1, h2, ho⟩ := hk edge sub hs
      obtain ⟨df, hv, hf⟩ := ho.fulls q hq (by simpa [List.append_assoc] using hneed)
      refine ⟨df, by rw [frameAt_cons, h2]; exact hv, ?_⟩
      simpa [List.append_assoc] using hf
  · intro q edge hq
    cases q with
    | cons a q =>
      rw [List.cons_append, hasNode_cons] at hq
      obtain ⟨sub, hs, hq⟩ := hq
      obtain ⟨dT, fT, h1, h2, ho⟩ := hk a sub hs
      rw [List.cons_append, idsAt_cons h1, idsAt_cons h1]
      exact ho.covers q edge hq
    | nil =>
      have hq' := hq
      rw [List.nil_append, hasNode_cons] at hq
      obtain ⟨sub, hs, hq⟩ := hq
      obtain ⟨dT, fT, h1, h2, ho⟩ := hk edge sub hs
      rw [List.nil_append, idsAt_cons h1, hI]
      have hask := ho.asked
      have hnode : hasNode (p ++ [edge]) (rootTrie targets G) := (hasNode_append hn).mpr (by rw [← ht]; exact hq')
      obtain ⟨b, r⟩ := edge
      have hpo := node_path R hnode p b r [] rfl
      rw [pathEnd_append _ _ _ (by simp)] at hask ⊢
      cases b with
      | true =>
        intro i hi hc
        have hcr := hask.2.1 _ hc
        have hidx : (worldOf env).cell r.parentE ((worldOf env).cell r.childE i r.childV) r.parentV = (worldOf env).cell r.childE i r.childV := by
          rw [hpo.1.parentIndex]
          exact cell_index hpo.1.parent R.window hc
        have hnn : (worldOf env).cell r.childE i r.childV ≠ .null := by
          intro h; rw [h] at hc; exact (visible_ids hpo.1.parent R.window).2 hc
        refine hcr ?_ ?_
        · show (worldOf env).cell r.parentE _ r.parentV ∈ _
          rw [hidx]
          exact List.mem_map.mpr ⟨i, hi, rfl⟩
        · show (worldOf env).cell r.parentE _ r.parentV ≠ _
          rw [hidx]; exact hnn
      | false =>
        intro i hi hc
        refine hask.2.1 i hi hc ?_
        intro h
        have := hsub _ hc
        have h' : (worldOf env).cell r.childE i r.childV = .null := h
        rw [h'] at this
        exact (visible_ids (node_entity R hn) R.window).2 this

omit R in
theorem put_map (r row : Row) (cs : List String) (c : String) :
    r.put (cs.map fun c => (c, row c)) c = if c ∈ cs then row c else r c := by
  by_cases h : c ∈ cs
  · rw [if_pos h]
    apply put_mem
    · exact List.mem_map.mpr ⟨c, h, rfl⟩
    · intro v hv
      obtain ⟨c', _, hc'⟩ := List.mem_map.mp hv
      cases hc'; rfl
  · rw [if_neg h]
    apply put_absent
    intro v hv
    obtain ⟨c', hc, hc'⟩ := List.mem_map.mp hv
    cases hc'; exact h hc

/-- Merging the precalculated values. -/
theorem mergePre_ok {p : List Edge} {ids : List Val} {pre : Option PreTable} (hpre : PreAt env targets G e0 ids p pre)
    {df : Table} {B : List String} {I : List Val} {lok : Link → Val → Prop} (hB : BaseCols env targets G e0 p B)
    (hI : I.Sublist ((worldOf env).ids (pathEnd e0 p)))
    (hreach : ∀ f, GivenAt targets G.names p f → ∀ x ∈ I, ReachedUp (worldOf env) ids p x)
    (hdf : FrameOk (worldOf env) (meaningAt (worldOf env) G p) (indexOf env (pathEnd e0 p)) (pathEnd e0 p) B (linksOf env targets G p)
        lok (fun _ => False) I df) :
    FrameOk (worldOf env) (meaningAt (worldOf env) G p) (indexOf env (pathEnd e0 p)) (pathEnd e0 p) B (linksOf env targets G p)
        lok (GivenAt targets G.names p) I (mergePre (indexOf env (pathEnd e0 p)) df pre) := by
  cases pre with
  | none => exact hdf.weaken (fun _ _ _ _ h => h) fun f => ⟨hpre f, False.elim⟩
  | some pt =>
    obtain ⟨hpc, hpf⟩ := hpre
    by_cases hany : ∃ f, GivenAt targets G.names p f
    · obtain ⟨f0, hf0⟩ := hany
      have hfwd := (R.givenUp p f0 hf0).1
      have hl0 : linksOf env targets G p = [] := by
        rcases List.eq_nil_or_concat p with rfl | ⟨p', ⟨b, r⟩, rfl⟩
        · rfl
        · rw [List.concat_eq_append, linksAt_snoc]
          have := hfwd (b, r) (by simp)
          simp only at this
          subst this
          rfl
      have hdisj : ∀ c ∈ pt.cols, c ∉ df.cols := by
        intro c hc hcd
        obtain ⟨f, hf, hcn⟩ := hpc c hc
        have hfi := R.givenKind p f hf
        rcases hdf.only c hcd with hcb | ⟨l, hl, _⟩ | ⟨_, h, _⟩
        · rcases hB.only c hcb with hk | ⟨g, full, hg, hgi, hgn⟩
          · refine R.notKey p f (.inr hf) hfi c hcn ?_
            rw [atNode_entity R (.inr hf)]; exact hk
          · have hne : f ≠ g := by rintro rfl; rw [hfi] at hgi; cases hgi
            exact R.disjoint p f g (.inr hf) (.inl ⟨full, hg⟩) hne c hcn (by rw [hgn]; simp)
        · rw [hl0] at hl; cases hl
        · exact h
      have hnew : (pt.cols.filter fun c => !df.cols.contains c) = pt.cols := by
        rw [List.filter_eq_self]
        intro c hc
        simpa using hdisj c hc
      have hrow : ∀ r ∈ df.rows, ∃ row, pt.rows.lookup (r (indexOf env (pathEnd e0 p))) = some row ∧
          ∀ f, GivenAt targets G.names p f → f.names.map row = G.value f (r (indexOf env (pathEnd e0 p))) := by
        intro r hr
        have hx : r (indexOf env (pathEnd e0 p)) ∈ I := by rw [← hdf.ids]; exact List.mem_map.mpr ⟨r, hr, rfl⟩
        obtain ⟨row, h1, _⟩ := (hpf f0 hf0).2 _ (hreach f0 hf0 _ hx) (hI.subset hx)
        refine ⟨row, h1, fun f hf => ?_⟩
        obtain ⟨row', h3, h4⟩ := (hpf f hf).2 _ (hreach f hf _ hx) (hI.subset hx)
        rw [h1] at h3; cases h3
        exact h4
      have hmem : ∀ r' ∈ (mergePre (indexOf env (pathEnd e0 p)) df (some pt)).rows, ∃ r ∈ df.rows,
          (∀ c ∈ df.cols, r' c = r c) ∧ ∀ f, GivenAt targets G.names p f → f.names.map r' = G.value f (r (indexOf env (pathEnd e0 p))) := by
        intro r' hr'
        simp only [mergePre, hnew] at hr'
        obtain ⟨r, hr, rfl⟩ := List.mem_map.mp hr'
        obtain ⟨row, h1, h2⟩ := hrow r hr
        simp only [h1]
        refine ⟨r, hr, ?_, ?_⟩
        · intro c hc
          rw [put_map, if_neg (fun h => hdisj c h hc)]
        · intro f hf
          rw [← h2 f hf]
          apply List.map_congr_left
          intro n hn
          rw [put_map, if_pos ((hpf f hf).1 n hn)]
      have hcols : ∀ c, c ∈ (mergePre (indexOf env (pathEnd e0 p)) df (some pt)).cols ↔ c ∈ df.cols ∨ c ∈ pt.cols := by
        intro c
        simp only [mergePre, hnew, mem_addCols]
      have hidB : indexOf env (pathEnd e0 p) ∈ B := by
        apply hB.key
        have hw := (R.wf f0 hf0.neededBy).2.2.1
        rw [atNode_entity R (.inr hf0)] at hw
        exact hw.indexKey
      have hidc := (hdf.base _ hidB).1
      refine ⟨?_, ?_, ?_, ?_, ?_⟩
      · rw [← hdf.ids]
        simp only [mergePre, hnew, List.map_map]
        apply List.map_congr_left
        intro r hr
        obtain ⟨row, h1, _⟩ := hrow r hr
        simp only [Function.comp, h1]
        rw [put_map, if_neg (fun h => hdisj _ h hidc)]
      · intro c hc
        refine ⟨(hcols c).mpr (.inl (hdf.base c hc).1), fun r' hr' => ?_⟩
        obtain ⟨r, hr, h1, _⟩ := hmem r' hr'
        rw [h1 c (hdf.base c hc).1, h1 _ hidc]
        exact (hdf.base c hc).2 r hr
      · intro l hl; rw [hl0] at hl; cases hl
      · intro f hf
        refine ⟨fun n hn => (hcols n).mpr (.inr ((hpf f hf).1 n hn)), fun r' hr' => ?_⟩
        obtain ⟨r, hr, h1, h2⟩ := hmem r' hr'
        rw [h2 f hf, h1 _ hidc, meaningAt_given _ _ (given_not_slice R hf) hf.hidden]
      · intro c hc
        rcases (hcols c).mp hc with hc | hc
        · rcases hdf.only c hc with h | h | ⟨_, h, _⟩
          · exact .inl h
          · exact .inr (.inl h)
          · exact h.elim
        · exact .inr (.inr (hpc c hc))
    · have hpc0 : pt.cols = [] := by
        rw [List.eq_nil_iff_forall_not_mem]
        intro c hc
        obtain ⟨f, hf, _⟩ := hpc c hc
        exact hany ⟨f, hf⟩
      have hm : mergePre (indexOf env (pathEnd e0 p)) df (some pt) = df := by
        obtain ⟨cols, rows⟩ := df
        simp only [mergePre, hpc0, List.filter_nil, List.map_nil]
        congr 1
        conv => rhs; rw [← List.map_id rows]
        apply List.map_congr_left
        intro r _
        split <;> rfl
      rw [hm]
      exact hdf.weaken (fun _ _ _ _ h => h) fun f => ⟨fun hf => hany ⟨f, hf⟩, False.elim⟩

/-- The end of the work at a node. -/
theorem finish_ok {p : List Edge} {v : NodeVal} {cs : List (Edge × FTrie)} {kids : List (Edge × DTrie × DTrie)} {fv : String} {fvals : List Val}
    {ids : List Val} {pre : Option PreTable} (hpre : PreAt env targets G e0 ids p pre)
    (hreach : (∀ x ∈ p, x.1 = true) → fv = indexOf env (pathEnd e0 p) ∧ ∀ x ∈ fvals, ReachedUp (worldOf env) ids p x)
    (hn : hasNode p (rootTrie targets G)) (ht : .node v cs = Trie.nodeAt NodeVal.empty p (rootTrie targets G))
    (hkey : fv ∈ env.keyCols (pathEnd e0 p))
    {df0 : Table} {B : List String} {I I' : List Val} (hB : BaseCols env targets G e0 p B)
    (hI : I.Sublist ((worldOf env).ids (pathEnd e0 p)))
    (hneed : v.need = true → I = (worldOf env).ids (pathEnd e0 p) ∧ I' = I.filter fun x => fvals.contains ((worldOf env).cell (pathEnd e0 p) x fv))
    (hnot : v.need = false → I' = I)
    (hask : Asked env (pathEnd e0 p) fv fvals I')
    (hdf0 : FrameOk (worldOf env) (meaningAt (worldOf env) G p) (indexOf env (pathEnd e0 p)) (pathEnd e0 p) B (linksOf env targets G p)
        (fun l id => l.2.2 = true ∨ id ∈ I') (fun _ => False) I df0)
    (hk : KidsOut env targets G e0 p I' cs kids) :
    ∃ dT fT, finishNode env (byNameOf targets) (pathEnd e0 p) v fv fvals df0 pre kids = .ok (dT, fT) ∧
      NodeOut env targets G e0 p (.node v cs) fv fvals dT fT := by
  have hv : valAt targets G p = v := by
    have : (Trie.node v cs).value = (Trie.nodeAt NodeVal.empty p (rootTrie targets G)).value := by rw [ht]
    exact this.symm
  have hE := node_entity R hn
  obtain ⟨ent, hent, hidx⟩ := hE.get
  have hshort : ∀ l ∈ linksOf env targets G p, ¬ 1 < l.2.1.length → l.1 ∈ env.keyCols (pathEnd e0 p) :=
    fun l hl => (link_chain _ p rfl (node_path R hn) l hl).2.2
  have hfvB : fv ∈ B := hB.key _ hkey
  have hgn : v.need = true → ∀ f, ¬ GivenAt targets G.names p f := by
    intro hvn f hg
    have h1 := (R.givenUp p f hg).2
    have h2 : (planAt (buildTrie targets G.trie) p).need = v.need := by rw [← hv]
    rw [h2, hvn] at h1; cases h1
  have hdf := mergePre_ok R hpre hB hI (by
    intro f hg x hx
    have hvn : v.need = false := by
      cases h : v.need with
      | false => rfl
      | true => exact absurd hg (hgn h f)
    rw [← hnot hvn] at hx
    obtain ⟨h1, h2⟩ := hreach (R.givenUp p f hg).1
    have hxv := hask.1.subset hx
    have h3 := hask.2.2 x hx
    rw [h1, cell_index hE R.window hxv] at h3
    rcases h3 with h3 | h3
    · exact h2 x h3
    · subst h3; exact absurd hxv (visible_ids hE R.window).2) hdf0
  generalize hdfe : mergePre (indexOf env (pathEnd e0 p)) df0 pre = df at hdf
  -- the full phase
  have hfull : ∃ df2 fd, fullStep env (byNameOf targets) (indexOf env (pathEnd e0 p)) v fv fvals df (.node none (kids.map fun k => (k.1, k.2.2))) = .ok (df2, fd) ∧
      FrameOk (worldOf env) (meaningAt (worldOf env) G p) (indexOf env (pathEnd e0 p)) (pathEnd e0 p) B (linksOf env targets G p) (fun _ _ => True)
        (fun f => GivenAt targets G.names p f ∨ Planned targets G.names p f true) I' df2 ∧
      (v.need = true → ∃ d, fd = some d ∧ FullFrame env targets G e0 p d) := by
    cases hvn : v.need with
    | false =>
      have hI' := hnot hvn
      subst hI'
      refine ⟨df, none, by simp only [fullStep, hvn]; rfl, ?_, by simp⟩
      refine hdf.weaken (fun l _ x hx _ => .inr hx) ?_
      intro f
      refine ⟨fun hf => ?_, .inl⟩
      rcases hf with hf | hf
      · exact hf
      have := (plan_spec targets G p).2.2.mpr ⟨p, f, hf, List.prefix_refl _, List.prefix_append _ _⟩
      rw [hv, hvn] at this
      cases this
    | true =>
      obtain ⟨hIe, hI'⟩ := hneed hvn
      have hdf := hdf.weaken (D' := fun _ => False) (lok' := fun l id => l.2.2 = true ∨ id ∈ I') (fun _ _ _ _ h => h)
        fun f => ⟨False.elim, hgn hvn f⟩
      obtain ⟨fs, hfs, hnd, hmem⟩ := full_feats R p
      rw [hv] at hfs
      obtain ⟨t', ht', hfr⟩ := calcFeatures_ok (dfs := .node none (kids.map fun k => (k.1, k.2.2))) (fs := fs) (D0 := fun _ => False) (C := {
        regular := R, baseCols := hB.only, keyCols := hB.key, entity := hE, vars := fun f hf v hv => hB.vars f true ((hmem f).mp hf) v hv
        short := hshort
        lok := fun l hl h x hx => by
          rcases h with h | h
          · exact .inl h
          · have : (planAt (buildTrie targets G.trie) p).need = v.need := by rw [← hv]
            rw [this, hvn] at h; cases h
        sub := hI
        planned := fun f hf => ⟨true, (hmem f).mp hf⟩
        nodup := hnd
        done := fun _ h => h.elim
        notDone := fun _ _ h => h
        closed := fun f hf hp d hd b hb => by
          have := planned_dep ((hmem f).mp hf) hd hb
          rw [hp, List.append_nil, Bool.true_or] at this
          rcases this with this | this
          · exact .inr ((hmem b).mpr this)
          · exact absurd this (hgn hvn b)
        full := fun _ _ _ => hIe
        below := fun f hf hp => by
          rw [hIe]
          exact sub_full R hn ht (by
            intro q hq hq0 hqn
            cases q with
            | nil => exact absurd rfl hq0
            | cons edge q =>
              rw [hasNode_cons] at hq
              obtain ⟨sub, hs, hq⟩ := hq
              obtain ⟨dT, fT, h1, h2, ho⟩ := hk edge sub hs
              obtain ⟨df, hv, hf⟩ := ho.fulls q hq (by simpa [List.append_assoc] using hqn)
              refine ⟨df, by rw [frameAt_cons, h2]; exact hv, ?_⟩
              simpa [List.append_assoc] using hf) f ((hmem f).mp hf) hp }) hdf
      have hcol : fv ∈ t'.cols := (hfr.base fv hfvB).1
      refine ⟨{ t' with rows := t'.rows.filter fun r => fvals.contains (r fv) }, some t', ?_, ?_, ?_⟩
      · simp only [fullStep, hvn, if_true, hfs, ht', filterDf]
        rw [if_pos (by simpa using hcol)]
      · have h2 : FrameOk (worldOf env) (meaningAt (worldOf env) G p) (indexOf env (pathEnd e0 p)) (pathEnd e0 p) B (linksOf env targets G p)
            (fun l id => l.2.2 = true ∨ id ∈ I') (fun f => GivenAt targets G.names p f ∨ Planned targets G.names p f true) I t' :=
          hfr.weaken (fun _ _ _ _ h => h) fun f => by simp [hmem, hgn hvn f]
        refine h2.restrict _ ?_ (fun l _ x hx _ => .inr hx)
        rw [hI', ← hfr.ids, List.filter_map]
        congr 1
        apply List.filter_congr
        intro r hr
        simp only [Function.comp]
        rw [(hfr.base fv hfvB).2 r hr]
      · intro _
        refine ⟨t', rfl, B, hB, ?_⟩
        rw [hIe] at hfr
        exact hfr.weaken (fun _ _ _ _ h => .inl h) fun f => by simp [hmem]
  obtain ⟨df2, fd, hstep, hfr2, hfd⟩ := hfull
  -- the other features
  obtain ⟨fs, hfs, hnd, hmem⟩ := notFull_feats R p
  rw [hv] at hfs
  have hsubI' : ∀ x ∈ I', x ∈ (worldOf env).ids (pathEnd e0 p) := fun x hx => hask.1.subset hx
  have hbelow : ∀ f full, Planned targets G.names p f full → f.path ≠ [] →
      SubFrameOk env (meaningAt (worldOf env) G (p ++ f.path)) (pathEnd e0 p) I' (.node none (kids.map fun k => (k.1, k.2.1))) f := by
    intro f full hf hp
    have hids : idsAt env (pathEnd e0 p) (.node (some df2) (kids.map fun k => (k.1, k.2.1))) [] = I' := hfr2.ids
    have ho := kids_out R (x := some df2) (y := none) hn ht hk hids hsubI'
    have := sub_asked R (dT := .node (some df2) (kids.map fun k => (k.1, k.2.1))) hn ht ho.1 (by rw [hids]; exact hsubI') ho.2.2 f full hf hp
    rw [hids] at this
    have hna : ∀ x y : Option Table, (Trie.nodeAt none f.path (.node x (kids.map fun k => (k.1, k.2.1)))) =
        (Trie.nodeAt none f.path (.node y (kids.map fun k => (k.1, k.2.1)))) := by
      intro x y
      cases h : f.path with
      | nil => exact absurd h hp
      | cons a q => rfl
    simp only [SubFrameOk] at this ⊢
    rw [hna none (some df2)]
    exact this
  obtain ⟨df3, hdf3, hfr3⟩ := calcFeatures_ok (dfs := .node none (kids.map fun k => (k.1, k.2.1))) (fs := fs)
      (D0 := fun f => GivenAt targets G.names p f ∨ Planned targets G.names p f true) (C := {
        regular := R, baseCols := hB.only, keyCols := hB.key, entity := hE
        vars := fun f hf v hv => by
          obtain ⟨⟨full, hf⟩, _⟩ := (hmem f).mp hf
          exact hB.vars f full hf v hv
        short := hshort
        lok := fun _ _ _ _ _ => trivial
        sub := hask.1
        planned := fun f hf => ((hmem f).mp hf).1
        nodup := hnd
        done := fun _ h => h.elim .inr fun h => .inl ⟨true, h⟩
        notDone := fun f hf h => by
          obtain ⟨⟨_, hf1⟩, hf2⟩ := (hmem f).mp hf
          rcases h with h | h
          · exact hf1.not_hidden h.hidden
          · exact hf2 h
        closed := fun f hf hp d hd b hb => by
          obtain ⟨⟨full, hf⟩, _⟩ := (hmem f).mp hf
          have := planned_dep hf hd hb
          rw [hp, List.append_nil] at this
          rcases this with this | this
          · by_cases hbt : Planned targets G.names p b true
            · exact .inl (.inr hbt)
            · exact .inr ((hmem b).mpr ⟨⟨_, this⟩, hbt⟩)
          · exact .inl (.inl this)
        full := fun f hf hu => by
          obtain ⟨⟨full, hf⟩, hnf⟩ := (hmem f).mp hf
          have := planned_full_of_usesFull hf hu
          subst this
          exact absurd hf hnf
        below := fun f hf hp => by
          obtain ⟨⟨full, hf⟩, _⟩ := (hmem f).mp hf
          exact hbelow f full hf hp }) hfr2
  refine ⟨.node (some df3) (kids.map fun k => (k.1, k.2.1)), .node fd (kids.map fun k => (k.1, k.2.2)), ?_, ?_⟩
  · rw [hidx] at hstep hdf3
    rw [hidx] at hdfe
    simp only [finishNode, Env.getEnt, hent, hdfe, hstep, hfs, hdf3]
  have hids : idsAt env (pathEnd e0 p) (.node (some df3) (kids.map fun k => (k.1, k.2.1))) [] = I' := hfr3.ids
  have ho := kids_out R (x := some df3) (y := fd) hn ht hk hids hsubI'
  refine ⟨?_, ?_, by rw [hids]; exact hask, ho.2.2⟩
  · intro q hq
    by_cases hq0 : q = []
    · subst hq0
      refine ⟨df3, rfl, ?_⟩
      rw [List.append_nil]
      refine ⟨by rw [hfr3.ids]; exact hask.1, B, hB, ?_⟩
      rw [hfr3.ids]
      refine hfr3.weaken (fun _ _ _ _ h => h) fun f => ?_
      rw [hmem]
      constructor
      · rintro (⟨full, hf⟩ | hg)
        · by_cases hbt : Planned targets G.names p f true
          · exact .inl (.inr hbt)
          · exact .inr ⟨⟨full, hf⟩, hbt⟩
        · exact .inl (.inl hg)
      · rintro ((h | h) | ⟨h, _⟩)
        · exact .inr h
        · exact .inl ⟨_, h⟩
        · exact .inl h
    · exact ho.1 q hq hq0
  · intro q hq hqn
    by_cases hq0 : q = []
    · subst hq0
      rw [List.append_nil] at hqn ⊢
      rw [hv] at hqn
      obtain ⟨d, rfl, hd⟩ := hfd hqn
      exact ⟨d, rfl, hd⟩
    · exact ho.2.1 q hq hq0 hqn

/-- The arguments of a recursive call. -/
theorem subArgs_ok {ids : List Val} {p : List Edge} {edge : Edge} (hn : hasNode p (rootTrie targets G)) (hedge : hasNode (p ++ [edge]) (rootTrie targets G))
    {df filtered : Table} {B : List String} {I I' : List Val} {D : Feat → Prop} (hB : BaseCols env targets G e0 p B)
    (hI : I.Sublist ((worldOf env).ids (pathEnd e0 p))) (hI' : ∀ x ∈ I', x ∈ I)
    (hneed : (valAt targets G p).need = true → I = (worldOf env).ids (pathEnd e0 p))
    (hdf : FrameOk (worldOf env) (meaningAt (worldOf env) G p) (indexOf env (pathEnd e0 p)) (pathEnd e0 p) B (linksOf env targets G p)
        (fun l id => l.2.2 = true ∨ id ∈ I') (fun _ => False) I df)
    (hfi : FrameOk (worldOf env) (meaningAt (worldOf env) G p) (indexOf env (pathEnd e0 p)) (pathEnd e0 p) B (linksOf env targets G p)
        (fun _ _ => True) D I' filtered)
    (hreach : (∀ x ∈ p, x.1 = true) → ∀ x ∈ I', ReachedUp (worldOf env) ids p x) :
    ∃ pd, subArgs edge df filtered ((linksOf env targets G p).map Prod.fst) = .ok (pathEnd e0 (p ++ [edge]), subFv edge, subVals env I' edge, pd) ∧
      NodeIn env targets G e0 ids (p ++ [edge]) (subFv edge) (subVals env I' edge) pd := by
  obtain ⟨b, r⟩ := edge
  have hpo := node_path R hedge p b r [] rfl
  have hend : pathEnd e0 (p ++ [(b, r)]) = pathEnd "" [(b, r)] := by
    rw [pathEnd_append _ _ _ (by simp)]; cases b <;> rfl
  cases b with
  | true =>
    simp only [if_true] at hpo
    have hc : r.childV ∈ B := hB.key _ (by rw [← hpo.2]; exact hpo.1.childKey)
    obtain ⟨hcc, hcv⟩ := hfi.base _ hc
    refine ⟨none, ?_, hedge, ?_, ?_, ?_⟩
    · simp only [subArgs]
      rw [if_pos (by simpa using hcc), hend]
      have hm : (filtered.rows.map fun x => x r.childV) = subVals env I' (true, r) := by
        simp only [subVals]
        rw [← hfi.ids, List.map_map]
        apply List.map_congr_left
        intro x hx
        rw [hcv x hx, hpo.2]; rfl
      rw [hm]; rfl
    · rw [hend]
      show r.parentV ∈ env.keyCols r.parentE
      rw [hpo.1.parentIndex]; exact hpo.1.parent.indexKey
    · intro hf
      refine ⟨by rw [hend]; exact hpo.1.parentIndex, ?_⟩
      intro x hx
      obtain ⟨y, hy, rfl⟩ := List.mem_map.mp hx
      exact .up (hreach (fun z hz => hf z (List.mem_append.mpr (.inl hz))) y hy)
    · show linksOf env targets G (p ++ [(true, r)]) = []
      rw [linksAt_snoc]; rfl
  | false =>
    simp only [Bool.false_eq_true, if_false] at hpo
    have hpi : r.parentV = indexOf env (pathEnd e0 p) := by rw [hpo.1.parentIndex, hpo.2]
    have hib : indexOf env (pathEnd e0 p) ∈ B := hB.key _ (by rw [← hpo.2]; exact hpo.1.parent.indexKey)
    refine ⟨some ⟨r, (linksOf env targets G p).map Prod.fst, df⟩, ?_, hedge, ?_, ?_, ?_⟩
    · simp only [subArgs]
      rw [hpi, if_pos (by simpa using (hfi.base _ hib).1), hend, hfi.ids]
      rfl
    · rw [hend]
      exact hpo.1.childKey
    · intro hf
      have := hf (false, r) (by simp)
      cases this
    · refine ⟨p, rfl, rfl, rfl, ?_, B, I, ?_, ?_, ?_, ?_, hI'⟩
      · intro x hx h0
        subst h0
        exact (visible_ids (node_entity R hn) R.window).2 (hI.subset (hI' _ hx))
      · simp only [hpo.2]; exact hdf
      · simp only [hpo.2]; exact hib
      · simp only [hpo.2]; exact hI
      · simp only [hpo.2]; exact hneed

end

section
variable {env : Env} {targets : List Feat} {G : Given} {e0 : String} (R : RegularFor env targets G e0)
include R

mutual
/-- Every node of the plan is computed right. -/
theorem calcNode_ok (ids : List Val) : ∀ (t : FTrie) (pre : PTrie) (p : List Edge) (fv : String) (fvals : List Val) (pd : Option ParentData),
    t = Trie.nodeAt NodeVal.empty p (rootTrie targets G) → Trie.WF t → (∀ q, PreAt env targets G e0 ids (p ++ q) (Trie.nodeAt none q pre).value) → NodeIn env targets G e0 ids p fv fvals pd →
    ∃ dT fT, calcNode env (byNameOf targets) t pre (pathEnd e0 p) fv fvals pd = .ok (dT, fT) ∧
      NodeOut env targets G e0 p t fv fvals dT fT
  | .node v cs, pre, p, fv, fvals, pd, ht, hwf, hpre, hin => by
    have hn := hin.node
    have hv : valAt targets G p = v := by
      have : (Trie.node v cs).value = (Trie.nodeAt NodeVal.empty p (rootTrie targets G)).value := by rw [ht]
      exact this.symm
    obtain ⟨df, B, I, I', hprep, hB, hI, hneed, hnot, hask, hdf⟩ := prepNode_ok R hin
    rw [hv] at hprep hneed hnot
    have hI' : ∀ x ∈ I', x ∈ I := by
      cases hvn : v.need with
      | true => intro x hx; rw [(hneed hvn).2] at hx; exact (List.mem_filter.mp hx).1
      | false => intro x hx; rw [hnot hvn] at hx; exact hx
    have hfi : ∃ filtered, filteredDf v fv fvals df = .ok filtered ∧
        FrameOk (worldOf env) (meaningAt (worldOf env) G p) (indexOf env (pathEnd e0 p)) (pathEnd e0 p) B (linksOf env targets G p)
          (fun _ _ => True) (fun _ => False) I' filtered := by
      have hfvB : fv ∈ B := hB.key _ hin.key
      cases hvn : v.need with
      | false =>
        refine ⟨df, by simp [filteredDf, hvn], ?_⟩
        rw [hnot hvn]
        exact hdf.weaken (fun l _ x hx _ => .inr (by rw [hnot hvn]; exact hx)) fun _ => Iff.rfl
      | true =>
        refine ⟨{ df with rows := df.rows.filter fun r => fvals.contains (r fv) }, ?_, ?_⟩
        · simp only [filteredDf, hvn, if_true, filterDf]
          rw [if_pos (by simpa using (hdf.base fv hfvB).1)]
        · refine hdf.restrict _ ?_ (fun l _ x hx _ => .inr hx)
          rw [(hneed hvn).2, ← hdf.ids, List.filter_map]
          congr 1
          apply List.filter_congr
          intro r hr
          simp only [Function.comp]
          rw [(hdf.base fv hfvB).2 r hr]
    obtain ⟨filtered, hfe, hfi⟩ := hfi
    have hwf' : (cs.map Prod.fst).Nodup ∧ Trie.WFs cs := by simpa only [Trie.WF] using hwf
    have hcs : ∀ k ∈ cs, k.2 = Trie.nodeAt NodeVal.empty (p ++ [k.1]) (rootTrie targets G) ∧ hasNode (p ++ [k.1]) (rootTrie targets G) ∧ Trie.WF k.2 := by
      intro k hk
      have hch := Trie.child?_of_mem hwf'.1 (show (k.1, k.2) ∈ cs from hk)
      refine ⟨?_, ?_, (Trie.WFs_iff cs).mp hwf'.2 k hk⟩
      · rw [nodeAt_append, ← ht]
        simp only [Trie.nodeAt, hch, Option.getD_some]
      · refine (hasNode_append hn).mpr ?_
        rw [← ht, hasNode_cons]
        exact ⟨_, hch, trivial⟩
    obtain ⟨kids, hkids, hko⟩ := calcKids_ok ids cs pre p df filtered B I I' hn hB hI hI' (fun h => (hneed (by rw [← hv]; exact h)).1) hdf hfi hcs hpre (by
      intro hf x hx
      obtain ⟨h1, h2⟩ := hin.reach hf
      have hxv := hask.1.subset hx
      have h3 := hask.2.2 x hx
      have hE := node_entity R hn
      rw [h1, cell_index hE R.window hxv] at h3
      rcases h3 with h3 | h3
      · exact h2 x h3
      · subst h3; exact absurd hxv (visible_ids hE R.window).2)
    obtain ⟨dT, fT, hfin, hout⟩ := finish_ok R (pre := pre.value) (by have h0 := hpre []; rw [List.append_nil] at h0; exact h0) hin.reach hn ht hin.key hB hI hneed hnot hask hdf hko
    refine ⟨dT, fT, ?_, hout⟩
    simp only [calcNode, hprep, hfe, hkids]
    exact hfin

theorem calcKids_ok (ids : List Val) : ∀ (cs : List (Edge × FTrie)) (pre : PTrie) (p : List Edge) (df filtered : Table) (B : List String) (I I' : List Val),
    hasNode p (rootTrie targets G) → BaseCols env targets G e0 p B →
    I.Sublist ((worldOf env).ids (pathEnd e0 p)) → (∀ x ∈ I', x ∈ I) →
    ((valAt targets G p).need = true → I = (worldOf env).ids (pathEnd e0 p)) →
    FrameOk (worldOf env) (meaningAt (worldOf env) G p) (indexOf env (pathEnd e0 p)) (pathEnd e0 p) B (linksOf env targets G p)
        (fun l id => l.2.2 = true ∨ id ∈ I') (fun _ => False) I df →
    FrameOk (worldOf env) (meaningAt (worldOf env) G p) (indexOf env (pathEnd e0 p)) (pathEnd e0 p) B (linksOf env targets G p)
        (fun _ _ => True) (fun _ => False) I' filtered →
    (∀ k ∈ cs, k.2 = Trie.nodeAt NodeVal.empty (p ++ [k.1]) (rootTrie targets G) ∧ hasNode (p ++ [k.1]) (rootTrie targets G) ∧ Trie.WF k.2) →
    (∀ q, PreAt env targets G e0 ids (p ++ q) (Trie.nodeAt none q pre).value) →
    ((∀ x ∈ p, x.1 = true) → ∀ x ∈ I', ReachedUp (worldOf env) ids p x) →
    ∃ kids, calcKids env (byNameOf targets) cs pre df filtered ((linksOf env targets G p).map Prod.fst) = .ok kids ∧
      KidsOut env targets G e0 p I' cs kids
  | [], pre, p, df, filtered, B, I, I', _, _, _, _, _, _, _, _, _, _ => ⟨[], rfl, by intro e s h; simp [Trie.child?] at h⟩
  | (edge, sub) :: rest, pre, p, df, filtered, B, I, I', hn, hB, hI, hI', hneed, hdf, hfi, hcs, hpre, hreach => by
    obtain ⟨hs, hsn, hsw⟩ := hcs _ List.mem_cons_self
    obtain ⟨pd, harg, hin⟩ := subArgs_ok R hn hsn hB hI hI' hneed hdf hfi hreach
    obtain ⟨dT, fT, hc, ho⟩ := calcNode_ok ids sub (Trie.nodeAt none [edge] pre) (p ++ [edge]) (subFv edge) (subVals env I' edge) pd hs hsw (by
      intro q
      have := hpre (edge :: q)
      rw [show edge :: q = [edge] ++ q from rfl, nodeAt_append] at this
      simpa [List.append_assoc] using this) hin
    obtain ⟨kids, hk, hko⟩ := calcKids_ok ids rest pre p df filtered B I I' hn hB hI hI' hneed hdf hfi (fun k hk => hcs k (List.mem_cons_of_mem _ hk)) hpre hreach
    refine ⟨(edge, dT, fT) :: kids, ?_, ?_⟩
    · simp only [calcKids, harg]
      rw [hc, hk]
    · intro edge' sub' hch
      simp only [Trie.child?] at hch
      by_cases he : edge = edge'
      · subst he
        simp at hch
        subst hch
        exact ⟨dT, fT, by simp [Trie.child?], by simp [Trie.child?], ho⟩
      · have hch' : Trie.child? edge' rest = some sub' := by
          simpa [he] using hch
        obtain ⟨dT', fT', h1, h2, h3⟩ := hko edge' sub' hch'
        refine ⟨dT', fT', ?_, ?_, h3⟩
        · simp only [List.map_cons, Trie.child?]; simpa [he] using h1
        · simp only [List.map_cons, Trie.child?]; simpa [he] using h2
end
end
end FT
