import Verif.Spec.FileCoordinator

/-! Lemmas about saving the state of the index server. -/
namespace Flare

theorem applyAll_append (d : Disk) (a b : List FsOp) :
    d.applyAll (a ++ b) = (d.applyAll a).applyAll b := List.foldl_append ..

theorem applyAll_writes (d : Disk) (t : Bytes) (h : d.tmp = some t) (chunks : List Bytes) :
    d.applyAll (chunks.map .write) = { d with tmp := some (t ++ chunks.flatten) } := by
  induction chunks generalizing d t with
  | nil => simp only [List.map_nil, Disk.applyAll, List.foldl_nil, List.flatten_nil,
      List.append_nil, ← h]
  | cons c l ih =>
    have : d.applyAll ((c :: l).map .write) = (d.apply (.write c)).applyAll (l.map .write) := rfl
    rw [this, ih (d.apply (.write c)) (t ++ c) (by simp [Disk.apply, h])]
    simp [Disk.apply]

/-- The disk after the creation of the file and some writes. -/
theorem applyAll_early (d : Disk) (chunks : List Bytes) :
    d.applyAll (.create :: chunks.map .write) = { d with tmp := some chunks.flatten } := by
  have h : d.applyAll (.create :: chunks.map .write) =
      (d.apply .create).applyAll (chunks.map .write) := rfl
  rw [h, applyAll_writes _ [] rfl]
  simp [Disk.apply]

theorem saveOps_take {chunks : List Bytes} {k : Nat} (h : k ≤ chunks.length + 1) :
    (saveOps chunks).take k = [] ∨
    (saveOps chunks).take k = .create :: (chunks.take (k - 1)).map .write := by
  cases k with
  | zero => exact .inl rfl
  | succ k =>
    refine .inr ?_
    have : (chunks.map FsOp.write).length = chunks.length := List.length_map ..
    simp only [saveOps, List.cons_append, List.take_succ_cons, Nat.add_sub_cancel]
    rw [List.take_append_of_le_length (by omega), List.map_take]

/-- The disk at the moment between the two last calls. -/
theorem saveOps_between (d : Disk) (chunks : List Bytes) :
    d.applyAll ((saveOps chunks).take (chunks.length + 2)) = ⟨none, some chunks.flatten⟩ := by
  have : (saveOps chunks).take (chunks.length + 2) =
      (.create :: chunks.map .write) ++ [.unlink] := by
    simp only [saveOps]
    rw [List.take_append, List.take_of_length_le (by simp)]
    simp
  rw [this, applyAll_append, applyAll_early]
  rfl

theorem saveOps_all (d : Disk) (chunks : List Bytes) :
    d.applyAll (saveOps chunks) = ⟨some chunks.flatten, none⟩ := by
  simp only [saveOps]
  rw [applyAll_append, applyAll_early]
  rfl

end Flare
