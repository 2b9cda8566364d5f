import Verif.Model.Table
/-!
# Model of chunking and worker counts
(`computational_backends/calculate_feature_matrix.py` 724-744, `computational_backends/utils.py` 118-132)
-/
namespace FT

/-- `df.iloc[i:i + k]` for `i = 0, k, 2k, ...` below `len(df)` (`calculate_feature_matrix.py` 727, 731).
`range` with step zero is a `ValueError`. -/
def chunkRows {α : Type} (k : Nat) (rows : List α) : Except PyErr (List (List α)) :=
  if k = 0 then .error .valueError
  else .ok ((List.range ((rows.length + k - 1) / k)).map fun j => (rows.drop (j * k)).take k)

/-- The second branch of `_chunk_dataframe_groups` (`calculate_feature_matrix.py` 729-732): every group is cut into
chunks which keep the group's key. -/
def chunkGroups {κ α : Type} (k : Nat) : List (κ × List α) → Except PyErr (List (κ × List α))
  | [] => .ok []
  | (key, rows) :: rest =>
    match chunkRows k rows with
    | .error e => .error e
    | .ok cs => (chunkGroups k rest).map fun more => (cs.map fun c => (key, c)) ++ more

/-- The first branch of `_chunk_dataframe_groups` (`calculate_feature_matrix.py` 726-728): a single cutoff time. -/
def chunkTuple {τ α : Type} (k : Nat) (t : τ) (rows : List α) : Except PyErr (List (τ × List α)) :=
  (chunkRows k rows).map fun cs => cs.map fun c => (t, c)

/-- `sorted(set(keys))` for integer keys. -/
def sortedKeys (keys : List Int) : List Int := isort (fun a b => decide (a ≤ b)) (dedup keys)

/-- `df.groupby(key)` (keys sorted, rows in original order, one group for each key that occurs). -/
def groupByKey {α : Type} (key : α → Int) (rows : List α) : List (Int × List α) :=
  (sortedKeys (rows.map key)).map fun k => (k, rows.filter fun r => key r == k)

/-- `_handle_chunk_size` (`calculate_feature_matrix.py` 735-744) for the chunk size `num / den`, `den > 0`.
`math.ceil` of a fraction of the total when below one, truncation otherwise. -/
def handleChunkSize (num : Int) (den : Nat) (total : Nat) : Except PyErr Nat :=
  if num ≤ 0 then .error .assertionError
  else if num < den then .ok ((num.toNat * total + den - 1) / den)
  else .ok (num.toNat / den)

/-- `n_jobs_to_workers` (`computational_backends/utils.py` 126-132), given the number of CPUs. -/
def nJobsToWorkers (cpus nJobs : Int) : Except PyErr Int :=
  let workers := if nJobs < 0 then max (cpus + 1 + nJobs) 1 else min nJobs cpus
  if workers > 0 then .ok workers else .error .assertionError

end FT
