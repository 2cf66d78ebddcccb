/-!
# Model of writing partition files

`plan_to_delta_adds` (/repo/src/context/delta.rs 92-267): re-chunking of the record batches of all
partitions of a plan into temporary files (105-150) and the multipart upload of one file (199-241).
-/

namespace Seafowl.Dml

variable {ρ : Type}

/-- The `while` loop for one batch (delta.rs 117-144): `cur` are the rows of the open file.  Result: the
files closed and the rows of the file that is open afterwards; `none` if the loop does not terminate
(`max_partition_size` is 0: the leftover capacity stays 0). -/
def fill (max : Nat) (cur batch : List ρ) : Option (List (List ρ) × List ρ) :=
  if batch.length ≤ max - cur.length then some ([], cur ++ batch)
  else if max = 0 then none
  else
    match fill max [] (batch.drop (max - cur.length)) with
    | none => none
    | some (closed, cur') => some ((cur ++ batch.take (max - cur.length)) :: closed, cur')
termination_by batch.length * 2 + (if cur = [] then 0 else 1)
decreasing_by
  simp only [List.length_drop, if_true]
  rcases Nat.eq_zero_or_pos (max - cur.length) with h0 | h0
  · have : cur ≠ [] := by rintro rfl; simp at h0; omega
    simp only [this, if_false]
    omega
  · have : (if cur = [] then 0 else 1) ≥ 0 := Nat.zero_le _
    omega

/-- The loop over all batches of all partitions in order (delta.rs 109-147). -/
def fillAll (max : Nat) : List ρ → List (List ρ) → Option (List (List ρ) × List ρ)
  | cur, [] => some ([], cur)
  | cur, b :: bs =>
    match fill max cur b with
    | none => none
    | some (closed, cur') =>
      match fillAll max cur' bs with
      | none => none
      | some (closed', cur'') => some (closed ++ closed', cur'')

/-- The files written for a list of batches: the closed ones and the one still open at the end, each with
its metadata (here: the number of rows) (delta.rs 147-160). -/
def rechunk (max : Nat) (batches : List (List ρ)) : Option (List (List ρ × Nat)) :=
  match fillAll max [] batches with
  | none => none
  | some (closed, cur) =>
    let files := closed ++ [cur]
    some (files.zip (files.map List.length))

/-! ### multipart upload -/

/-- `PARTITION_FILE_MIN_PART_SIZE` (delta.rs 50). -/
def minPart : Nat := 5 * 1024 * 1024

/-- Result of an upload: the parts in the order in which they were uploaded, whether the upload was
completed or aborted, and whether an error is returned. -/
structure Upload (β : Type) where
  parts : List (List β)
  completed : Bool
  error : Bool
deriving DecidableEq, Repr

variable {β : Type}

/-- The read loop (delta.rs 207-241).  `file`: the bytes not read yet; `buf`: the part buffer; `parts`:
the parts uploaded.  The oracles decide how many bytes the next read returns (at least one unless the
file is at its end; `none`: a read error) and whether the next part upload succeeds. -/
def uploadLoop (min : Nat) : (file buf : List β) → (parts : List (List β)) → (reads : List (Option Nat)) →
    (puts : List Bool) → Upload β
  | file, buf, parts, reads, puts =>
    match reads.headD (some file.length) with
    | none => { parts := parts, completed := false, error := true }
    | some n =>
      if _h : file = [] then
        -- read_buf returns 0
        if buf = [] then { parts := parts, completed := true, error := false }
        else if puts.headD true then
          -- the next read is at the end of the file with an empty buffer
          match reads.tail.headD (some 0) with
          | none => { parts := parts ++ [buf], completed := false, error := true }
          | some _ => { parts := parts ++ [buf], completed := true, error := false }
        else { parts := parts, completed := false, error := true }
      else
        -- read_buf returns `k` bytes
        let k := max 1 n
        let buf' := buf ++ file.take k
        if buf'.length < min then uploadLoop min (file.drop k) buf' parts reads.tail puts
        else if puts.headD true then uploadLoop min (file.drop k) [] (parts ++ [buf']) reads.tail puts.tail
        else { parts := parts, completed := false, error := true }
termination_by file => file.length
decreasing_by
  all_goals
    have : 0 < file.length := List.length_pos_iff.2 _h
    simp only [List.length_drop]
    omega

/-- The upload of a file (delta.rs 199-241): `complete` may fail as well, which is an error without
abort. -/
def upload (min : Nat) (file : List β) (reads : List (Option Nat)) (puts : List Bool) (completeOk : Bool) : Upload β :=
  let u := uploadLoop min file [] [] reads puts
  if u.error then u
  else if completeOk then u
  else { u with completed := false, error := true }

end Seafowl.Dml
