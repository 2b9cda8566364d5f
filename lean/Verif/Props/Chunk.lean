import Verif.Lemmas.Chunk
/-!
# C31, C37: chunking and worker counts
-/
namespace FT

/-- C31. Cutting the groups of the cutoff table by any positive size: every chunk is non-empty, has at most `k` rows and a
single cutoff time; per cutoff time the chunks in order are exactly the rows of that time in table order; cutoff times
appear in increasing order, and nothing else appears. -/
theorem C31_chunks_partition {α : Type} (time : α → Int) (rows : List α) (k : Nat) (hk : 0 < k) :
    ∃ chunks, chunkGroups k (groupByKey time rows) = .ok chunks ∧
      (∀ c ∈ chunks, c.2 ≠ [] ∧ c.2.length ≤ k ∧ ∀ r ∈ c.2, time r = c.1) ∧
      (∀ t, ((chunks.filter fun c => c.1 == t).map Prod.snd).flatten = rows.filter fun r => time r == t) ∧
      (chunks.map Prod.fst).Pairwise (· ≤ ·) := by
  obtain ⟨out, ho, h1, h2⟩ := chunkGroups_spec k hk (groupByKey time rows)
  have htime : ∀ c ∈ out, c.2 ≠ [] ∧ c.2.length ≤ k ∧ ∀ r ∈ c.2, time r = c.1 := by
    intro c hc
    obtain ⟨a, b, g, hg, e, hr⟩ := h1 c hc
    refine ⟨a, b, ?_⟩
    intro r hm
    obtain ⟨t, _, rfl⟩ := List.mem_map.mp hg
    have := hr r hm
    simp only [List.mem_filter, beq_iff_eq] at this
    rw [e]; exact this.2
  refine ⟨out, ho, htime, ?_, ?_⟩
  · intro t
    have hL : ((out.filter fun c => c.1 == t).map Prod.snd).flatten =
        ((out.flatMap fun c => c.2.map fun r => (c.1, r)).filter fun x => x.1 == t).map Prod.snd := by
      clear ho h1 h2 htime
      induction out with
      | nil => rfl
      | cons c cs ih =>
        simp only [List.flatMap_cons, List.filter_append, List.map_append, ← ih, List.filter_cons]
        by_cases h : c.1 == t
        · simp only [h, if_true, List.map_cons, List.flatten_cons]
          congr 1
          rw [List.filter_eq_self.mpr (by simp only [List.mem_map]; rintro _ ⟨r, _, rfl⟩; exact h)]
          simp [Function.comp_def]
        · simp only [h, if_false, Bool.false_eq_true]
          have he : (c.2.map fun r => (c.1, r)).filter (fun x => x.1 == t) = [] := by
            rw [List.filter_eq_nil_iff]
            simp only [List.mem_map]; rintro _ ⟨r, _, rfl⟩; exact h
          rw [he]
          rfl
    rw [hL, h2]
    have hR : ∀ keys : List Int, keys.Nodup →
        (((keys.map fun k => (k, rows.filter fun r => time r == k)).flatMap
          fun g => g.2.map fun r => (g.1, r)).filter fun x => x.1 == t).map Prod.snd =
        if t ∈ keys then rows.filter (fun r => time r == t) else [] := by
      intro keys hn
      induction keys with
      | nil => rfl
      | cons k0 keys ih =>
        simp only [List.nodup_cons] at hn
        simp only [List.map_cons, List.flatMap_cons, List.filter_append, List.map_append, ih hn.2, List.mem_cons]
        by_cases h : t = k0
        · subst h
          simp only [hn.1, if_false, List.append_nil, true_or, if_true]
          rw [List.filter_eq_self.mpr (by simp only [List.mem_map]; rintro _ ⟨r, _, rfl⟩; simp)]
          simp [Function.comp_def]
        · have h' : ¬ k0 = t := fun e => h e.symm
          rw [List.filter_eq_nil_iff.mpr (by simp only [List.mem_map]; rintro _ ⟨r, _, rfl⟩; simpa using h')]
          simp [h]
    unfold groupByKey
    rw [hR _ (nodup_sortedKeys _)]
    split
    · rfl
    · rename_i hn
      symm
      rw [List.filter_eq_nil_iff]
      intro r hr he
      exact hn ((mem_sortedKeys _ _).mpr (by simp at he; exact List.mem_map.mpr ⟨r, hr, he⟩))
  · -- keys of chunks are the keys of the groups, repeated, in order
    have hgen : ∀ (gs : List (Int × List α)) out, chunkGroups k gs = .ok out →
        (gs.map Prod.fst).Pairwise (· < ·) →
        (out.map Prod.fst).Pairwise (· ≤ ·) ∧ ∀ x ∈ out.map Prod.fst, x ∈ gs.map Prod.fst := by
      intro gs
      induction gs with
      | nil => intro out h _; cases h; simp
      | cons g gs ih =>
        obtain ⟨key, rs⟩ := g
        intro out h hp
        simp only [chunkGroups] at h
        obtain ⟨cs, hcs⟩ := (chunkRows_ok_iff k rs).mpr hk
        rw [hcs] at h
        simp only at h
        cases hgs : chunkGroups k gs with
        | error e => rw [hgs] at h; cases h
        | ok more =>
          rw [hgs] at h
          cases h
          simp only [List.map_cons, List.pairwise_cons] at hp
          obtain ⟨i1, i2⟩ := ih more hgs hp.2
          constructor
          · rw [List.map_append, List.pairwise_append]
            refine ⟨?_, i1, ?_⟩
            · simp only [List.map_map, Function.comp_def, List.map_const']
              exact List.pairwise_replicate.mpr (.inr (Int.le_refl _))
            · intro a ha b hb
              simp [Function.comp_def] at ha
              have := hp.1 b (i2 b hb)
              omega
          · intro x hx
            rw [List.map_append, List.mem_append] at hx
            rcases hx with hx | hx
            · simp [Function.comp_def] at hx; simp [hx.2]
            · simp only [List.map_cons, List.mem_cons]; exact .inr (i2 x hx)
    refine (hgen _ _ ho ?_).1
    have : (groupByKey time rows).map Prod.fst = sortedKeys (rows.map time) := by
      simp [groupByKey, Function.comp_def]
    rw [this]; exact sorted_sortedKeys _

/-- C31. A single cutoff time: the chunks are non-empty, bounded, and concatenate to the instance list. -/
theorem C31_single_time_chunks {τ α : Type} (t : τ) (rows : List α) (k : Nat) (hk : 0 < k) :
    ∃ chunks, chunkTuple k t rows = .ok chunks ∧ (∀ c ∈ chunks, c.1 = t ∧ c.2 ≠ [] ∧ c.2.length ≤ k) ∧
      (chunks.map Prod.snd).flatten = rows := by
  obtain ⟨cs, hcs⟩ := (chunkRows_ok_iff k rows).mpr hk
  refine ⟨cs.map fun c => (t, c), by simp [chunkTuple, hcs, Except.map], ?_, ?_⟩
  · intro c hc
    obtain ⟨c', hc', rfl⟩ := List.mem_map.mp hc
    obtain ⟨a, b, _⟩ := mem_chunkRows hcs hc'
    exact ⟨rfl, a, b⟩
  · simp only [List.map_map, Function.comp_def, List.map_id']; exact flatten_chunkRows hcs

/-- C31. A size of zero is rejected as soon as there is something to cut. -/
theorem C31_zero_size_rejected {α : Type} (time : α → Int) (rows : List α) (h : rows ≠ []) :
    chunkGroups 0 (groupByKey time rows) = .error .valueError := by
  have : groupByKey time rows ≠ [] := by
    intro he
    obtain ⟨r, rs, rfl⟩ := List.exists_cons_of_ne_nil h
    have hm : time r ∈ sortedKeys ((r :: rs).map time) := (mem_sortedKeys _ _).mpr (by simp)
    have : (groupByKey time (r :: rs)).map Prod.fst = sortedKeys ((r :: rs).map time) := by
      simp [groupByKey, Function.comp_def]
    rw [he] at this
    rw [← this] at hm
    simp at hm
  obtain ⟨g, gs, hg⟩ := List.exists_cons_of_ne_nil this
  rw [hg]
  obtain ⟨a, b⟩ := g
  rfl

/-- C31. The user's chunk size `num/den`: non-positive is rejected; below one it is the fraction of the total, rounded up
(so at least one row and at most all rows of a non-empty table); otherwise it is truncated to a whole number. -/
theorem C31_chunk_size (num : Int) (den total : Nat) (hd : 0 < den) :
    (num ≤ 0 → handleChunkSize num den total = .error .assertionError) ∧
    (0 < num → num < den → ∃ k, handleChunkSize num den total = .ok k ∧
      (num * total ≤ k * den) ∧ ((k : Int) * den < num * total + den) ∧ (0 < total → 1 ≤ k) ∧ k ≤ total) ∧
    ((den : Int) ≤ num → ∃ k, handleChunkSize num den total = .ok k ∧ 1 ≤ k ∧
      (k : Int) * den ≤ num ∧ num < (k + 1) * den) := by
  refine ⟨fun h => by simp [handleChunkSize, h], fun h1 h2 => ?_, fun h => ?_⟩
  · obtain ⟨n, rfl⟩ : ∃ n : Nat, num = n := ⟨num.toNat, by omega⟩
    have h2' : n < den := by omega
    have h1' : 0 < n := by omega
    refine ⟨(n * total + den - 1) / den, ?_, ?_, ?_, ?_, ?_⟩
    · unfold handleChunkSize
      rw [if_neg (by omega), if_pos h2]; simp
    · have := chunkRows_cover (n * total) den hd
      exact_mod_cast this
    · have := Nat.div_mul_le_self (n * total + den - 1) den
      have : (n * total + den - 1) / den * den < n * total + den := by omega
      exact_mod_cast this
    · intro ht
      have : 0 < n * total := Nat.mul_pos h1' ht
      exact Nat.div_pos (by omega) hd
    · rw [Nat.div_le_iff_le_mul_add_pred hd]
      have : n * total ≤ den * total := Nat.mul_le_mul_right _ (by omega)
      omega
  · obtain ⟨n, rfl⟩ : ∃ n : Nat, num = n := ⟨num.toNat, by omega⟩
    have h' : den ≤ n := by omega
    refine ⟨n / den, ?_, Nat.div_pos h' hd, ?_, ?_⟩
    · unfold handleChunkSize
      rw [if_neg (by omega), if_neg (by omega)]; simp
    · exact_mod_cast Nat.div_mul_le_self n den
    · have := Nat.div_add_mod n den
      have h3 := Nat.mod_lt n hd
      have : n < (n / den + 1) * den := by rw [Nat.add_mul, Nat.mul_comm (n / den)]; omega
      exact_mod_cast this

/-- Non-vacuity of C31: a table with three cutoff times cut in twos. -/
example : chunkGroups 2 (groupByKey Prod.fst [(5, "a"), (3, "b"), (5, "c"), (5, "d"), (4, "e")]) =
    .ok [(3, [(3, "b")]), (4, [(4, "e")]), (5, [(5, "a"), (5, "c")]), (5, [(5, "d")])] := by decide
example : handleChunkSize 1 3 10 = .ok 4 ∧ handleChunkSize 5 2 10 = .ok 2 ∧ handleChunkSize 1 2 0 = .ok 0 := by decide

/-- C37. With at least one CPU: a negative request counts back from all CPUs but at least one worker; a positive request
gives that many workers but no more than CPUs; zero is rejected. -/
theorem C37_workers (cpus nJobs : Int) (hc : 1 ≤ cpus) :
    (nJobs = 0 → nJobsToWorkers cpus nJobs = .error .assertionError) ∧
    (nJobs ≠ 0 → ∃ w, nJobsToWorkers cpus nJobs = .ok w ∧ 1 ≤ w ∧ w ≤ cpus ∧
      (nJobs = -1 → w = cpus) ∧ (0 < nJobs → w ≤ nJobs ∧ (w = nJobs ∨ w = cpus)) ∧
      (nJobs < 0 → w = 1 ∨ w = cpus + 1 + nJobs)) := by
  unfold nJobsToWorkers
  constructor
  · rintro rfl
    simp only [Int.lt_irrefl, if_false]
    rw [if_neg (by omega)]
  · intro h
    by_cases hn : nJobs < 0
    · refine ⟨max (cpus + 1 + nJobs) 1, ?_, by omega, by omega, by omega, by omega, by omega⟩
      simp only [hn, if_true]; rw [if_pos (by omega)]
    · refine ⟨min nJobs cpus, ?_, by omega, by omega, by omega, by omega, by omega⟩
      simp only [hn, if_false]; rw [if_pos (by omega)]

/-- C37. More requested jobs never give fewer workers, among positive and among negative requests. -/
theorem C37_workers_monotone (cpus a b wa wb : Int) (h : a ≤ b) (hs : 0 < a ∨ b < 0)
    (ha : nJobsToWorkers cpus a = .ok wa) (hb : nJobsToWorkers cpus b = .ok wb) : wa ≤ wb := by
  unfold nJobsToWorkers at ha hb
  have ha' : wa = if a < 0 then max (cpus + 1 + a) 1 else min a cpus := by
    by_cases h0 : (if a < 0 then max (cpus + 1 + a) 1 else min a cpus) > 0
    · simp only [h0, if_true, Except.ok.injEq] at ha; exact ha.symm
    · simp only [h0, if_false] at ha; cases ha
  have hb' : wb = if b < 0 then max (cpus + 1 + b) 1 else min b cpus := by
    by_cases h0 : (if b < 0 then max (cpus + 1 + b) 1 else min b cpus) > 0
    · simp only [h0, if_true, Except.ok.injEq] at hb; exact hb.symm
    · simp only [h0, if_false] at hb; cases hb
  rw [ha', hb']
  split <;> split <;> omega

example : nJobsToWorkers 4 (-2) = .ok 3 ∧ nJobsToWorkers 4 9 = .ok 4 ∧ nJobsToWorkers 4 (-9) = .ok 1 := by decide

end FT
