import Verif.Lemmas.Cfm
import Verif.Lemmas.NoLeak
/-! # The feature matrix reads only what is shown at the cutoff of a row -/
namespace FT
open Spec

/-- Two lists of rows agree on the rows at time `t`. -/
def AgreeAt (t : Int) (x y : List MRow) : Prop := (x.filter fun r => r.time = t) = y.filter fun r => r.time = t

theorem AgreeAt.append {t : Int} {a b c d : List MRow} (h : AgreeAt t a b) (h' : AgreeAt t c d) : AgreeAt t (a ++ c) (b ++ d) := by
  unfold AgreeAt at *
  rw [List.filter_append, List.filter_append, h, h']

/-- Two steps agree when they succeed. -/
def AgreeIf (t : Int) (x y : Except PyErr (List MRow)) : Prop := ∀ a b, x = .ok a → y = .ok b → AgreeAt t a b

theorem concatAll_agree {α : Type} (t : Int) (g g' : α → Except PyErr (List MRow)) (l : List α) (h : ∀ a ∈ l, AgreeIf t (g a) (g' a)) :
    AgreeIf t (concatAll g l) (concatAll g' l) := by
  induction l with
  | nil => intro a b ha hb; cases ha; cases hb; rfl
  | cons x l ih =>
    intro a b ha hb
    simp only [concatAll] at ha hb
    split at ha
    · cases ha
    · rename_i y hy
      split at ha
      · cases ha
      · rename_i z hz
        cases ha
        split at hb
        · cases hb
        · rename_i y' hy'
          split at hb
          · cases hb
          · rename_i z' hz'
            cases hb
            exact (h x (by simp) y y' hy hy').append (ih (fun a ha => h a (by simp [ha])) z z' hz hz')

theorem groupMatrix_time {c : Call} {t : Int} {grp : List TRow} {rows : List MRow} (h : groupMatrix c t grp = .ok rows) : ∀ r ∈ rows, r.time = t := by
  unfold groupMatrix at h
  simp only at h
  split at h
  · cases h
  · split at h
    · cases h
      intro r hr
      obtain ⟨x, _, rfl⟩ := List.mem_map.mp hr
      rfl
    · cases h

theorem agree_of_times {t u : Int} (htu : u ≠ t) {x y : List MRow} (hx : ∀ r ∈ x, r.time = u) (hy : ∀ r ∈ y, r.time = u) : AgreeAt t x y := by
  have key : ∀ l : List MRow, (∀ r ∈ l, r.time = u) → (l.filter fun r => r.time = t) = [] := by
    intro l hl
    rw [List.filter_eq_nil_iff]
    intro r hr
    simp [hl r hr, htu]
  unfold AgreeAt
  rw [key x hx, key y hy]

/-- The same call for other entities. -/
def Call.withEnt (c : Call) (ent' : String → Option Ent) : Call := { c with env := { c.env with ent := ent' } }

theorem groupMatrix_agree (c : Call) (ent' : String → Option Ent) (t : Int)
    (hrun : ∀ ids, runCalc ((c.withEnt ent').at t c.env.window) c.targets (Trie.new []) (Trie.new none) c.entity ids =
      runCalc (c.at t c.env.window) c.targets (Trie.new []) (Trie.new none) c.entity ids) (u : Int) (grp : List TRow) :
    AgreeIf t (groupMatrix c u grp) (groupMatrix (c.withEnt ent') u grp) := by
  by_cases hu : u = t
  · subst hu
    have : groupMatrix (c.withEnt ent') u grp = groupMatrix c u grp := by
      unfold groupMatrix
      have := hrun (isort c.idLe (grp.map TRow.id))
      simp only [Call.withEnt, Call.entity, Call.featCols] at this ⊢
      rw [this]
      rfl
    rw [this]
    intro a b ha hb
    rw [ha] at hb; cases hb; rfl
  · intro a b ha hb
    exact agree_of_times hu (groupMatrix_time ha) (groupMatrix_time hb)

theorem calculateExact_agree (c : Call) (ent' : String → Option Ent) (t : Int) (h : ∀ u grp, AgreeIf t (groupMatrix c u grp) (groupMatrix (c.withEnt ent') u grp))
    (size : Option Nat) (rows : List TRow) : AgreeIf t (calculateExact c size rows) (calculateExact (c.withEnt ent') size rows) := by
  unfold calculateExact
  simp only
  split
  · intro a b ha; cases ha
  · refine concatAll_agree t _ _ _ ?_
    intro g _
    split
    · intro a b ha; cases ha
    · exact concatAll_agree t _ _ _ fun p _ => h p.1 p.2

theorem concatAll_id_map {α β : Type} (w : α → Except PyErr (List β)) (l : List α) : concatAll id (l.map w) = concatAll w l := by
  induction l with
  | nil => rfl
  | cons a l ih => simp only [List.map_cons, concatAll, ih]; rfl

theorem gather_map {α : Type} (order : Nat → List Nat) (w : α → Except PyErr (List MRow)) (l : List α) :
    gather order (l.map w) = if l.isEmpty then .error .valueError else concatAll w ((order l.length).filterMap fun i => l[i]?) := by
  unfold gather
  have h1 : (l.map w).isEmpty = l.isEmpty := by cases l <;> rfl
  have h2 : ((order (l.map w).length).filterMap fun i => (l.map w)[i]?) = ((order l.length).filterMap fun i => l[i]?).map w := by
    rw [List.map_filterMap, List.length_map]
    congr 1
    funext i
    rw [List.getElem?_map]
  rw [h1, h2, concatAll_id_map]

theorem execute_agree {α : Type} (exec : Exec) (t : Int) (size : Option Nat) (total : Nat) (key : α → Int) (rows : List α)
    (work work' : Option Nat → List α → Except PyErr (List MRow)) (h : ∀ s r, AgreeIf t (work s r) (work' s r)) :
    AgreeIf t (execute exec size total key rows work) (execute exec size total key rows work') := by
  unfold execute
  split
  · exact h _ _
  · split
    · intro a b ha; cases ha
    · split
      · intro a b ha; cases ha
      · rw [gather_map, gather_map]
        split
        · intro a b ha; cases ha
        · exact concatAll_agree t _ _ _ fun x _ => h _ _

theorem find_agree {t : Int} {x y : List MRow} (h : AgreeAt t x y) (i : Val) :
    (x.find? fun r => r.id = i ∧ some r.time = some t) = y.find? fun r => r.id = i ∧ some r.time = some t := by
  have key : ∀ l : List MRow, (l.find? fun r => r.id = i ∧ some r.time = some t) = (l.filter fun r => r.time = t).find? fun r => r.id = i := by
    intro l
    rw [List.find?_filter]
    congr 1
    funext r
    simp [and_comm]
  rw [key, key, h]

theorem reindexTable_agree {t : Int} {cols : List String} {cut : List CutRow} {x y : List MRow} {m m' : Matrix} (h : AgreeAt t x y)
    (hm : reindexTable cols cut x = .ok m) (hm' : reindexTable cols cut y = .ok m') (i : Nat) (r : CutRow) (hr : cut[i]? = some r)
    (ht : r.time = some t) : m.rows[i]? = m'.rows[i]? := by
  unfold reindexTable at hm hm'
  split at hm
  · cases hm
    split at hm'
    · cases hm'
      simp only [List.getElem?_map, hr, Option.map_some, ht, find_agree h]
    · cases hm'
  · cases hm

/-! ### The whole call -/

theorem concatAll_congr {α β : Type} {g g' : α → Except PyErr (List β)} {l : List α} (h : ∀ a ∈ l, g a = g' a) : concatAll g l = concatAll g' l := by
  induction l with
  | nil => rfl
  | cons a l ih => simp only [concatAll, h a (by simp), ih fun a ha => h a (by simp [ha])]

theorem chunkGroups_mem {κ α : Type} {k : Nat} {gs out : List (κ × List α)} (h : chunkGroups k gs = .ok out) :
    ∀ c ∈ out, ∃ g ∈ gs, c.1 = g.1 ∧ c.2.Sublist g.2 := by
  by_cases hk : 0 < k
  · obtain ⟨out', ho, h1, _⟩ := chunkGroups_sub k hk gs
    rw [h] at ho; cases ho
    exact fun c hc => (h1 c hc).2
  · have : k = 0 := by omega
    subst this
    cases gs with
    | nil => cases h; intro c hc; cases hc
    | cons g gs => cases h

theorem piece_time {size : Option Nat} {rows : List TRow} {ps : List (Int × List TRow)} (h : pieces size (groupByKey TRow.time rows) = .ok ps) :
    ∀ p ∈ ps, ∃ x ∈ rows, x.time = p.1 := by
  have key : ∀ g ∈ groupByKey TRow.time rows, ∃ x ∈ rows, x.time = g.1 := by
    intro g hg
    obtain ⟨hne, hs, hk⟩ := mem_groupByKey hg
    obtain ⟨x, hx⟩ := List.exists_mem_of_ne_nil _ hne
    exact ⟨x, hs.subset hx, hk x hx⟩
  intro p hp
  cases size with
  | none => cases h; exact key p hp
  | some k =>
    obtain ⟨g, hg, he, _⟩ := chunkGroups_mem h p hp
    rw [he]; exact key g hg

theorem execute_same {α : Type} (exec : Exec) (size : Option Nat) (total : Nat) (key : α → Int) (rows : List α)
    (work work' : Option Nat → List α → Except PyErr (List MRow)) (h : ∀ s r, (∀ x ∈ r, x ∈ rows) → work s r = work' s r) :
    execute exec size total key rows work = execute exec size total key rows work' := by
  unfold execute
  split
  · exact h _ _ fun x hx => hx
  · split
    · rfl
    · split
      · rfl
      · rename_i hc
        congr 1
        apply List.map_congr_left
        intro c hcm
        obtain ⟨g, hg, _, hs⟩ := chunkGroups_mem hc c hcm
        exact h _ _ fun x hx => (mem_groupByKey hg).2.1.subset (hs.subset hx)

theorem groupMatrix_same (c : Call) (ent' : String → Option Ent) (t : Int) (grp : List TRow)
    (hrun : ∀ ids, runCalc ((c.withEnt ent').at t c.env.window) c.targets (Trie.new []) (Trie.new none) c.entity ids =
      runCalc (c.at t c.env.window) c.targets (Trie.new []) (Trie.new none) c.entity ids) :
    groupMatrix (c.withEnt ent') t grp = groupMatrix c t grp := by
  unfold groupMatrix
  have := hrun (isort c.idLe (grp.map TRow.id))
  simp only [Call.withEnt, Call.entity, Call.featCols] at this ⊢
  rw [this]
  rfl

theorem calculateExact_same (c : Call) (ent' : String → Option Ent) (size : Option Nat) (rows : List TRow)
    (h : ∀ r ∈ rows, ∀ grp, groupMatrix (c.withEnt ent') r.time grp = groupMatrix c r.time grp) :
    calculateExact (c.withEnt ent') size rows = calculateExact c size rows := by
  unfold calculateExact
  simp only
  split
  · rfl
  · apply concatAll_congr
    intro g hg
    obtain ⟨_, hgr, _⟩ := mem_groupByKey hg
    cases hp : pieces size (groupByKey TRow.time g.2) with
    | error e => rfl
    | ok ps =>
      simp only
      apply concatAll_congr
      intro p hpm
      obtain ⟨x, hx, hxt⟩ := piece_time hp p hpm
      rw [← hxt]
      exact h x (hgr.subset hx) p.2

theorem singleMatrix_same (c : Call) (ent' : String → Option Ent) (t : Int) (ids : List Val)
    (hrun : ∀ ids, runCalc ((c.withEnt ent').at t c.env.window) c.targets (Trie.new []) (Trie.new none) c.entity ids =
      runCalc (c.at t c.env.window) c.targets (Trie.new []) (Trie.new none) c.entity ids) :
    singleMatrix (c.withEnt ent') t ids = singleMatrix c t ids := by
  unfold singleMatrix
  have := hrun ids
  simp only [Call.withEnt, Call.entity] at this ⊢
  rw [this]

end FT
