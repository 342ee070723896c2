import Verif.Lemmas.FileCoordinator
import Verif.Model.Dump

/-! What a restart of the index server finds after a crash (C28). -/
namespace Flare

/-- A restart after a crash at any point of a save but one finds the old or the new state, however
the text was flushed: the old one before the last two calls, the new one after them.  Between
`unlink` and `rename` it finds neither (see `C28_lost`). -/
theorem C28_old_or_new_partial (d : Disk) (chunks : List Bytes) (k : Nat) :
    (k ≤ chunks.length + 1 → (d.applyAll ((saveOps chunks).take k)).load = d.load) ∧
    (chunks.length + 3 ≤ k → (d.applyAll ((saveOps chunks).take k)).load = chunks.flatten) := by
  constructor
  · intro h
    rcases saveOps_take h with e | e <;> rw [e]
    · rfl
    · rw [applyAll_early]; rfl
  · intro h
    rw [List.take_of_length_le (by simp [saveOps]; omega), saveOps_all]; rfl

example : let d : Disk := ⟨some (ascii "old"), none⟩
    (d.applyAll ((saveOps [ascii "ne", ascii "w"]).take 3)).load = ascii "old" ∧
    (d.applyAll ((saveOps [ascii "ne", ascii "w"]).take 5)).load = ascii "new" := by decide

/-- A crash between `unlink` and `rename` loses both: the next start finds no file, which counts as
an empty state and is no error, although the new state lies complete in the other file. -/
theorem C28_lost (d : Disk) (chunks : List Bytes) :
    let d' := d.applyAll ((saveOps chunks).take (chunks.length + 2))
    d'.load = [] ∧ d'.tmp = some chunks.flatten := by
  rw [saveOps_between]; exact ⟨rfl, rfl⟩

/-- The same if `rename` fails: the save reports an error, and the old state is gone as well. -/
theorem C28_rename_fails (d : Disk) (xml : Bytes) :
    (d.save xml .rename).2 = false ∧ (d.save xml .rename).1.load = [] := ⟨rfl, rfl⟩

/-- A disk that is full: the save reports success, and the state is cut off. -/
theorem C28_disk_full (d : Disk) (xml : Bytes) (n : Nat) :
    (d.save xml (.write n)).2 = true ∧ (d.save xml (.write n)).1.load = xml.take n := by
  refine ⟨rfl, ?_⟩
  have : (d.save xml (.write n)).1 = d.applyAll (saveOps [xml.take n]) := rfl
  rw [this, saveOps_all]; simp [Disk.load]

/-- After any number of saves, failures and crashes a restart finds nothing or a state that was to
be stored at some time, never a part of one, as long as what is written reaches the disk; and it
does find one if no crash came between the last two calls. -/
theorem C28_history_partial (l : List SaveEv) (d : Disk) (h : ∀ e ∈ l, e.diskOk) :
    ((d.history l).file = none ∨ (d.history l).file = d.file ∨
      ∃ e ∈ l, (d.history l).file = some e.state) ∧
    ((∀ e ∈ l, e.notBetween) → d.file ≠ none → (d.history l).file ≠ none) := by
  induction l generalizing d with
  | nil => exact ⟨.inr (.inl rfl), fun _ h => h⟩
  | cons e l ih =>
    have hstep : ((d.event e).file = none ∧ ¬ e.notBetween) ∨ (d.event e).file = d.file ∨
        (d.event e).file = some e.state := by
      cases e with
      | save xml f =>
        cases f with
        | none_ =>
          refine .inr (.inr ?_)
          have : d.event (.save xml .none_) = d.applyAll (saveOps [xml]) := rfl
          rw [this, saveOps_all]; simp [SaveEv.state]
        | open_ => exact .inr (.inl rfl)
        | write n => exact absurd (h _ (List.mem_cons_self ..)) id
        | unlink => exact .inr (.inl rfl)
        | rename => exact .inl ⟨rfl, fun h => h rfl⟩
      | crash chunks k =>
        by_cases h1 : k ≤ chunks.length + 1
        · refine .inr (.inl ?_)
          simp only [Disk.event]
          rcases saveOps_take h1 with e | e <;> rw [e]
          · rfl
          · rw [applyAll_early]
        · by_cases h2 : k = chunks.length + 2
          · subst h2
            refine .inl ⟨?_, fun h => h rfl⟩
            simp only [Disk.event, saveOps_between]
          · refine .inr (.inr ?_)
            simp only [Disk.event]
            rw [List.take_of_length_le (by simp [saveOps]; omega), saveOps_all]; rfl
    obtain ⟨i1, i2⟩ := ih (d.event e) (fun x hx => h x (List.mem_cons_of_mem _ hx))
    have hh : d.history (e :: l) = (d.event e).history l := rfl
    rw [hh]
    constructor
    · rcases i1 with i | i | ⟨x, hx, i⟩
      · exact .inl i
      · rcases hstep with ⟨s, _⟩ | s | s
        · exact .inl (i.trans s)
        · exact .inr (.inl (i.trans s))
        · exact .inr (.inr ⟨e, List.mem_cons_self .., i.trans s⟩)
      · exact .inr (.inr ⟨x, List.mem_cons_of_mem _ hx, i⟩)
    · intro hn hd
      refine i2 (fun x hx => hn x (List.mem_cons_of_mem _ hx)) ?_
      rcases hstep with ⟨_, s⟩ | s | s
      · exact absurd (hn e (List.mem_cons_self ..)) s
      · rw [s]; exact hd
      · rw [s]; simp

example : ((⟨none, none⟩ : Disk).history [.save (ascii "one") .none_,
    .crash [ascii "tw", ascii "o"] 2, .save (ascii "three") .unlink]).load = ascii "one" := by
  decide

end Flare
