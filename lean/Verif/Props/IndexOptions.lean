import Verif.Model.IndexOptions
import Verif.Lemmas.Config

/-! # C73 for the index server: options over its life -/

namespace Flare

/-- The file names every option that is read again. -/
def IndexGiven.Complete (g : IndexGiven) : Prop :=
  g.logFacility ≠ none ∧ g.maxConnection ≠ none ∧ g.monitorThreshold ≠ none ∧ g.monitorInterval ≠ none ∧
  g.monitorReadTimeout ≠ none ∧ g.netReadTimeout ≠ none ∧ g.threadPoolSize ≠ none

/-- The files that could be read. -/
def indexFiles (fs : List (Option IndexGiven)) : List IndexGiven := fs.filterMap id

theorem reloadIndexAll_option {α : Type} (field : IndexIni → α) (get : IndexGiven → Option α)
    (h : ∀ g n, field (reloadIndex (some g) n).2.ini = (get g).getD (field n.ini)) (fs : List (Option IndexGiven))
    (n : IndexRun) : field (reloadIndexAll fs n).ini = lastGiven ((indexFiles fs).map get) (field n.ini) := by
  induction fs generalizing n with
  | nil => rfl
  | cons f fs ih =>
    cases f with
    | none => exact ih n
    | some g =>
      rw [show reloadIndexAll (some g :: fs) n = reloadIndexAll fs (reloadIndex (some g) n).2 from rfl, ih, h]
      rw [show indexFiles (some g :: fs) = g :: indexFiles fs from rfl, List.map_cons]
      cases e : get g <;> rfl

/-- What the options of an index server are after any history of files: each is the value that was given last in a file
that could be read; before that, the one of the command line, of the first file, or the default. -/
theorem C73_index_history (cli f0 : IndexGiven) (fs : List (Option IndexGiven)) :
    let i := (reloadIndexAll fs (startIndexRun cli f0)).ini
    let all := f0 :: cli :: indexFiles fs
    i.logFacility = lastGiven (all.map IndexGiven.logFacility) [] ∧
    i.maxConnection = lastGiven (all.map fun g => g.maxConnection.map toUInt32) 128 ∧
    i.monitorThreshold = lastGiven (all.map IndexGiven.monitorThreshold) 3 ∧
    i.monitorInterval = lastGiven (all.map IndexGiven.monitorInterval) 5 ∧
    i.monitorReadTimeout = lastGiven (all.map IndexGiven.monitorReadTimeout) 1000 ∧
    i.netReadTimeout = lastGiven (all.map IndexGiven.netReadTimeout) 600000 ∧
    i.threadPoolSize = lastGiven (all.map IndexGiven.threadPoolSize) 5 := by
  have key : ∀ {α : Type} (a b : Option α) (l : List (Option α)) (d : α),
      lastGiven l ((b <|> a).getD d) = lastGiven (a :: b :: l) d := by
    intro α a b l d
    cases a <;> cases b <;> rfl
  have e : ∀ x y : Option Int, (x <|> y).map toUInt32 = (x.map toUInt32 <|> y.map toUInt32) := by
    intro x y; cases x <;> rfl
  refine ⟨?_, ?_, ?_, ?_, ?_, ?_, ?_⟩
  · exact (reloadIndexAll_option IndexIni.logFacility IndexGiven.logFacility (fun _ _ => rfl) fs _).trans (key _ _ _ _)
  · refine (reloadIndexAll_option IndexIni.maxConnection (fun g => g.maxConnection.map toUInt32) (fun _ _ => rfl) fs _).trans ?_
    simp only [startIndexRun, loadIndex, IndexGiven.over, e]
    exact key _ _ _ _
  · exact (reloadIndexAll_option IndexIni.monitorThreshold IndexGiven.monitorThreshold (fun _ _ => rfl) fs _).trans (key _ _ _ _)
  · exact (reloadIndexAll_option IndexIni.monitorInterval IndexGiven.monitorInterval (fun _ _ => rfl) fs _).trans (key _ _ _ _)
  · exact (reloadIndexAll_option IndexIni.monitorReadTimeout IndexGiven.monitorReadTimeout (fun _ _ => rfl) fs _).trans (key _ _ _ _)
  · exact (reloadIndexAll_option IndexIni.netReadTimeout IndexGiven.netReadTimeout (fun _ _ => rfl) fs _).trans (key _ _ _ _)
  · exact (reloadIndexAll_option IndexIni.threadPoolSize IndexGiven.threadPoolSize (fun _ _ => rfl) fs _).trans (key _ _ _ _)

theorem reloadIndexAll_set (fs : List (Option IndexGiven)) (n : IndexRun)
    (h : n.set.monitorThreshold = n.ini.monitorThreshold ∧ n.set.monitorInterval = n.ini.monitorInterval ∧
      n.set.monitorReadTimeout = n.ini.monitorReadTimeout ∧ n.set.readTimeout = millis n.ini.netReadTimeout ∧
      n.set.reqPool = n.ini.threadPoolSize) :
    let m := reloadIndexAll fs n
    (m.set.monitorThreshold = m.ini.monitorThreshold ∧ m.set.monitorInterval = m.ini.monitorInterval ∧
      m.set.monitorReadTimeout = m.ini.monitorReadTimeout ∧ m.set.readTimeout = millis m.ini.netReadTimeout ∧
      m.set.reqPool = m.ini.threadPoolSize) ∧ m.set.otherPool = n.set.otherPool := by
  induction fs generalizing n with
  | nil => exact ⟨h, rfl⟩
  | cons f fs ih =>
    cases f with
    | none => exact ih n h
    | some g => exact ih (reloadIndex (some g) n).2 ⟨rfl, rfl, rfl, rfl, rfl⟩

/-- After every history of files the parts of an index server act on the options as they are then.  Partial: the pool of
the threads that are not for requests keeps the size of the start. -/
theorem C73_index_applied_partial (cli f0 : IndexGiven) (fs : List (Option IndexGiven)) :
    let n := startIndexRun cli f0
    let m := reloadIndexAll fs n
    m.set = { monitorThreshold := m.ini.monitorThreshold, monitorInterval := m.ini.monitorInterval,
              monitorReadTimeout := m.ini.monitorReadTimeout, readTimeout := millis m.ini.netReadTimeout,
              reqPool := m.ini.threadPoolSize, otherPool := n.ini.threadPoolSize } := by
  intro n m
  obtain ⟨⟨h1, h2, h3, h4, h5⟩, h6⟩ := reloadIndexAll_set fs n ⟨rfl, rfl, rfl, rfl, rfl⟩
  obtain ⟨s, es⟩ : ∃ s, s = (reloadIndexAll fs n).set := ⟨_, rfl⟩
  show (reloadIndexAll fs n).set = _
  rw [← es] at h1 h2 h3 h4 h5 h6 ⊢
  cases s
  simp only at h1 h2 h3 h4 h5 h6
  subst h1 h2 h3 h4 h5 h6
  rfl

/-- **Reload is restart** for an index server: after any history, a file that can be read and names every option that is
read again puts the index server into the state of one that is started with this file.  Partial: the command line must
leave these options alone, and the size of the pools must be the one of the start. -/
theorem C73_index_restart_partial (f0 g : IndexGiven) (fs : List (Option IndexGiven)) (hg : g.Complete)
    (hp : (startIndexRun {} g).ini.threadPoolSize = (startIndexRun {} f0).ini.threadPoolSize) :
    reloadIndex (some g) (reloadIndexAll fs (startIndexRun {} f0)) = (true, startIndexRun {} g) := by
  obtain ⟨h1, h2, h3, h4, h5, h6, h7⟩ := hg
  have ho := (reloadIndexAll_set fs (startIndexRun {} f0) ⟨rfl, rfl, rfl, rfl, rfl⟩).2
  have ho2 : (startIndexRun {} f0).set.otherPool = (startIndexRun {} f0).ini.threadPoolSize := rfl
  rw [ho2, ← hp] at ho
  obtain ⟨n, en⟩ : ∃ n, n = reloadIndexAll fs (startIndexRun {} f0) := ⟨_, rfl⟩
  rw [← en] at ho ⊢
  cases g with
  | mk a b c d e f k =>
    simp only at h1 h2 h3 h4 h5 h6 h7
    cases a <;> cases b <;> cases c <;> cases d <;> cases e <;> cases f <;> cases k <;>
      first
      | contradiction
      | (simp only [startIndexRun, loadIndex, IndexGiven.over] at ho ⊢
         simp only [reloadIndex, ho]
         rfl)

/-- An index server for which no timeout is given waits 600000 seconds, about a week, for the rest of a request, a node
600 seconds: the default is in milliseconds, and is multiplied once more. -/
theorem C73_index_week (cli f : IndexGiven) (hc : cli.netReadTimeout = none) (hf : f.netReadTimeout = none) :
    (startIndexRun cli f).set.readTimeout = some (600000 * 1000) ∧
    ∀ c g n, startNode c g = some n → c.netReadTimeout = none → g.netReadTimeout = none →
      n.set.readTimeout = some (600 * 1000) := by
  constructor
  · simp only [startIndexRun, loadIndex, IndexGiven.over, hc, hf]
    decide
  · intro c g n h h1 h2
    obtain ⟨l, mode, _, hs, _⟩ := startNode_spec h
    obtain ⟨v, _, _, _, hi⟩ := loadIni_eq l
    rw [hs, hi]
    simp only [Given.over, h1, h2]
    decide

/-- What the command line said is gone after the first file that says something else. -/
theorem C73_index_command_line_lost (cli f : IndexGiven) (a b : Int) (hc : cli.monitorThreshold = some a)
    (hf : f.monitorThreshold = some b) :
    (startIndexRun cli f).set.monitorThreshold = a ∧
    (reloadIndex (some f) (startIndexRun cli f)).2.set.monitorThreshold = b := by
  constructor
  · simp only [startIndexRun, loadIndex, IndexGiven.over, hc]; rfl
  · simp only [reloadIndex, hf]; rfl

/-! ## Examples -/

def exampleIndexFile : IndexGiven :=
  { logFacility := some [], maxConnection := some 256, monitorThreshold := some 2, monitorInterval := some 1,
    monitorReadTimeout := some 500, netReadTimeout := some 30, threadPoolSize := some 8 }

example : exampleIndexFile.Complete := by
  refine ⟨?_, ?_, ?_, ?_, ?_, ?_, ?_⟩ <;> simp [exampleIndexFile]

/-- The pools have different sizes after a reload, and the same size after a restart. -/
example : let n := (reloadIndex (some exampleIndexFile) (startIndexRun {} {})).2
    (n.set.reqPool, n.set.otherPool) = (8, 5) ∧
    (startIndexRun {} exampleIndexFile).set.otherPool = 8 := by decide

example : (startIndexRun {} {}).set.readTimeout = some 600000000 ∧
    (startIndexRun { netReadTimeout := some 20 } exampleIndexFile).set.readTimeout = some 20000 := by decide

end Flare
