import Verif.Model.PidFile
import Verif.Lemmas.Config

/-! # C108: one server at a time in a data directory -/

namespace Flare

/-- A start that nothing comes between. -/
def wholeStart (p : Nat) : List PidEvent := [.start p, .empty p, .write p]

/-- A history in which starts are not interrupted. -/
inductive PidCalm : List PidEvent → Prop
  | nil : PidCalm []
  | start {es} (p : Nat) : PidCalm es → PidCalm (wholeStart p ++ es)
  | stop {es} (p : Nat) : PidCalm es → PidCalm (.stop p :: es)
  | die {es} (p : Nat) : PidCalm es → PidCalm (.die p :: es)
  | appear {es} (p : Nat) : PidCalm es → PidCalm (.appear p :: es)
  | vanish {es} (p : Nat) : PidCalm es → PidCalm (.vanish p :: es)

theorem pidDigit_not_blank {c : UInt8} (h : isDigit c = true) : isBlank c = false := by
  revert h
  have key : ∀ n : Fin 256, isDigit (UInt8.ofNat n.val) = true → isBlank (UInt8.ofNat n.val) = false := by decide +kernel
  have := key ⟨c.toNat, c.toNat_lt⟩
  simpa using this

theorem streamWord_decimal (p : Nat) (r : Bytes) : streamWord (decimal p ++ [10] ++ r) = decimal p := by
  have hd : ∀ c ∈ decimal p, isBlank c = false := fun c hc => pidDigit_not_blank (decimal_digits p c hc)
  obtain ⟨a, t, e⟩ := List.exists_cons_of_ne_nil (decimal_ne_nil p)
  have h1 : (decimal p ++ [10] ++ r).dropWhile isBlank = decimal p ++ 10 :: r := by
    rw [e]
    simp [hd a (by rw [e]; simp)]
  unfold streamWord
  rw [h1, List.takeWhile_append_of_pos (by intro c hc; simp [hd c hc])]
  simp [show isBlank 10 = true by decide]

/-- The check with a file that a server has written. -/
theorem pidCheck_written {w : PidWorld} {q p : Nat} {r : Bytes} (h0 : 0 < p) (h1 : p < 2147483648)
    (hf : w.file = some (decimal p ++ [10] ++ r)) :
    w.check q = if p = q ∨ p ∈ w.pids then .refused else .go := by
  obtain ⟨i, hi, he⟩ := lexInt_decimal h1
  have ha : w.answers q i.toInt = (decide (p = q) || w.pids.contains p) := by
    rw [he]
    unfold PidWorld.answers
    rw [if_neg (by omega), if_pos (by omega)]
    simp
  simp only [PidWorld.check, hf, streamWord_decimal, hi, ha]
  simp

theorem pid_run_append (w : PidWorld) (a b : List PidEvent) : w.run (a ++ b) = (w.run a).run b := by
  simp [PidWorld.run, List.foldl_append]

/-- A start that nothing comes between, of a number that is free. -/
theorem pidWhole_start {w : PidWorld} {p : Nat} (hs : w.servers = []) (h0 : 0 < p) (h1 : p < 2147483648)
    (hn : p ∉ w.others) (hc : w.check p = .go) :
    w.run (wholeStart p) = { w with file := some (decimal p ++ [10]), servers := [(p, .running)] } := by
  have hp : p ∉ w.pids := by simpa [PidWorld.pids, hs] using hn
  simp [PidWorld.run, wholeStart, PidWorld.step, h0, h1, hp, hc, hs]

/-- A start that does not pass the check changes nothing. -/
theorem pidWhole_refused {w : PidWorld} {p : Nat} (hp : ∀ x ∈ w.servers, x.2 = .running)
    (h : ¬ (0 < p ∧ p < 2147483648 ∧ p ∉ w.pids ∧ w.check p = .go)) : w.run (wholeStart p) = w := by
  have a : (p, PidPhase.checked) ∉ w.servers := fun hm => by simpa using hp _ hm
  have b : (p, PidPhase.opened) ∉ w.servers := fun hm => by simpa using hp _ hm
  simp only [PidWorld.run, wholeStart, List.foldl_cons, List.foldl_nil, PidWorld.step, if_neg h, if_neg a, if_neg b]

/-- At most one server runs, and the file names it. -/
def PidWorld.Single (w : PidWorld) : Prop :=
  w.servers = [] ∨
    ∃ p, 0 < p ∧ p < 2147483648 ∧ w.servers = [(p, .running)] ∧ w.file = some (decimal p ++ [10])

theorem pidSingle_run {es : List PidEvent} (h : PidCalm es) :
    ∀ {w : PidWorld}, w.Single → (w.run es).Single := by
  induction h with
  | nil => intro w h; exact h
  | @start es p _ ih =>
    intro w h
    rw [pid_run_append]
    apply ih
    by_cases hc : 0 < p ∧ p < 2147483648 ∧ p ∉ w.pids ∧ w.check p = .go
    · rcases h with hs | ⟨q, q0, q1, hs, hf⟩
      · rw [pidWhole_start hs hc.1 hc.2.1 (fun hm => hc.2.2.1 (by simp [PidWorld.pids, hm])) hc.2.2.2]
        exact .inr ⟨p, hc.1, hc.2.1, rfl, rfl⟩
      · have := pidCheck_written (q := p) (r := []) q0 q1 (by simpa using hf)
        rw [if_pos (.inr (by simp [PidWorld.pids, hs]))] at this
        rw [this] at hc
        exact absurd hc.2.2.2 (by decide)
    · rw [pidWhole_refused _ hc]
      · exact h
      · rcases h with hs | ⟨q, _, _, hs, _⟩ <;> simp [hs]
  | @stop es p _ ih =>
    intro w h
    apply ih
    show (w.step (.stop p)).Single
    simp only [PidWorld.step]
    split
    · rename_i hm
      rcases h with hs | ⟨q, _, _, hs, _⟩
      · simp [hs] at hm
      · rw [hs] at hm
        have e : p = q := by simpa using hm
        subst e
        exact .inl (by simp [hs])
    · exact h
  | @die es p _ ih =>
    intro w h
    apply ih
    show (w.step (.die p)).Single
    rcases h with hs | ⟨q, q0, q1, hs, hf⟩
    · exact .inl (by simp [PidWorld.step, hs])
    · by_cases e : q = p
      · exact .inl (by simp [PidWorld.step, hs, e])
      · exact .inr ⟨q, q0, q1, by simp [PidWorld.step, hs, e], hf⟩
  | @appear es p _ ih =>
    intro w h
    apply ih
    show (w.step (.appear p)).Single
    simp only [PidWorld.step]
    split <;> exact h
  | @vanish es p _ ih =>
    intro w h
    apply ih
    exact h

/-- **C108**: whatever the file holds at first, at most one server runs at a time through every history of starts, stops,
crashes and other processes, if no start is interrupted, and while one runs the file holds its number.

Missing: starts that overlap (`C108_race`). -/
theorem C108_alone_partial {w : PidWorld} (hw : w.servers = []) {es : List PidEvent} (h : PidCalm es) :
    (w.run es).servers = [] ∨
      ∃ p, (w.run es).servers = [(p, .running)] ∧ (w.run es).file = some (decimal p ++ [10]) := by
  rcases pidSingle_run h (.inl hw : w.Single) with h | ⟨p, _, _, h, hf⟩
  · exact .inl h
  · exact .inr ⟨p, h, hf⟩

example : (PidWorld.run ⟨none, [], [7], []⟩ (wholeStart 5 ++ wholeStart 6)).servers = [(5, .running)] := by decide +kernel

/-- **C108**: after a server has been stopped, every new one starts. -/
theorem C108_orderly {w : PidWorld} {p q : Nat} (hs : w.servers = [(p, .running)]) (h0 : 0 < q) (h1 : q < 2147483648)
    (hn : q ∉ w.others) : (w.run (.stop p :: wholeStart q)).servers = [(q, .running)] := by
  have e : w.run (.stop p :: wholeStart q) = ({ w with file := none, servers := [] } : PidWorld).run (wholeStart q) := by
    simp [PidWorld.run, PidWorld.step, hs]
  rw [e, pidWhole_start (w := { w with file := none, servers := [] }) rfl h0 h1 hn rfl]

example : (PidWorld.run ⟨none, [], [7], []⟩ (wholeStart 5 ++ .stop 5 :: wholeStart 6)).servers = [(6, .running)] := by
  decide +kernel

/-- **C108**: after a server has been killed, a new one starts exactly if the number of the dead one is neither its own
nor that of any other process.  A server that gets the same number each time, as the first process of a container does,
never starts again. -/
theorem C108_crashed {w : PidWorld} {p q : Nat} (p0 : 0 < p) (p1 : p < 2147483648) (hs : w.servers = [(p, .running)])
    (hf : w.file = some (decimal p ++ [10])) (h0 : 0 < q) (h1 : q < 2147483648) (hn : q ∉ w.others) :
    (w.run (.die p :: wholeStart q)).servers = if p = q ∨ p ∈ w.others then [] else [(q, .running)] := by
  obtain ⟨v, ev⟩ : ∃ v : PidWorld, v = { w with servers := [] } := ⟨_, rfl⟩
  have e : w.run (.die p :: wholeStart q) = v.run (wholeStart q) := by
    simp [PidWorld.run, PidWorld.step, hs, ev]
  have vs : v.servers = [] := by rw [ev]
  have vo : v.others = w.others := by rw [ev]
  have hv : v.file = some (decimal p ++ [10] ++ []) := by rw [ev]; simpa using hf
  have hc := pidCheck_written (q := q) p0 p1 hv
  have hp : v.pids = w.others := by simp [PidWorld.pids, vs, vo]
  rw [hp] at hc
  rw [e]
  by_cases h : p = q ∨ p ∈ w.others
  · rw [if_pos h] at hc ⊢
    rw [pidWhole_refused (by simp [vs]) (by rw [hc]; simp)]
    exact vs
  · rw [if_neg h] at hc ⊢
    rw [pidWhole_start vs h0 h1 (by rw [vo]; exact hn) hc]

example : (PidWorld.run ⟨none, [], [7], []⟩ (wholeStart 1 ++ .die 1 :: wholeStart 1)).servers = [] := by decide +kernel
example : (PidWorld.run ⟨none, [], [7], []⟩ (wholeStart 5 ++ .die 5 :: wholeStart 6)).servers = [(6, .running)] := by
  decide +kernel

/-- **C108**: as soon as the process that got the number of a killed server has ended, a new server starts. -/
theorem C108_freed {w : PidWorld} {p q : Nat} (p0 : 0 < p) (p1 : p < 2147483648) (hs : w.servers = [(p, .running)])
    (hf : w.file = some (decimal p ++ [10])) (h0 : 0 < q) (h1 : q < 2147483648) (hn : q ∉ w.others) (hpq : p ≠ q) :
    (w.run (.die p :: .vanish p :: wholeStart q)).servers = [(q, .running)] := by
  obtain ⟨v, ev⟩ : ∃ v : PidWorld, v = { w with others := w.others.filter (fun x => x ≠ p) } := ⟨_, rfl⟩
  have e : w.run (.die p :: .vanish p :: wholeStart q) = v.run (.die p :: wholeStart q) := by
    simp [PidWorld.run, PidWorld.step, ev]
  rw [e, C108_crashed p0 p1 (by rw [ev]; exact hs) (by rw [ev]; exact hf) h0 h1 (by rw [ev]; simp [hn]),
    if_neg (by rw [ev]; simp [hpq])]

example : (PidWorld.run ⟨none, [], [], []⟩ (wholeStart 5 ++ [.die 5, .appear 5] ++ wholeStart 6)).servers = [] ∧
    (PidWorld.run ⟨none, [], [], []⟩ (wholeStart 5 ++ [.die 5, .appear 5] ++ wholeStart 6 ++ .vanish 5 :: wholeStart 6)).servers =
      [(6, .running)] := by decide +kernel

/-- A file without a number keeps every server out, whatever happens. -/
theorem C108_garbage {w : PidWorld} {s : Bytes} (hs : w.servers = []) (hf : w.file = some s)
    (hl : lexInt (streamWord s) = none) (es : List PidEvent) :
    (w.run es).servers = [] ∧ (w.run es).file = some s ∧ ∀ p, (w.run es).check p = .thrown := by
  have hc : ∀ v : PidWorld, v.file = some s → ∀ p, v.check p = .thrown := fun v h p => by
    simp [PidWorld.check, h, hl]
  induction es generalizing w with
  | nil => exact ⟨hs, hf, hc w hf⟩
  | cons e es ih =>
    refine ih (w := w.step e) ?_ ?_
    · cases e <;> simp only [PidWorld.step] <;> (try split) <;> simp_all
    · cases e <;> simp only [PidWorld.step] <;> (try split) <;> simp_all

/-- **C108**: a server that dies between opening its file and writing its number, or cannot write it because the disk is
full, leaves an empty file, and no server starts in this directory until somebody removes it: each one ends with an
exception. -/
theorem C108_interrupted {w : PidWorld} {p : Nat} (hs : w.servers = []) (h0 : 0 < p) (h1 : p < 2147483648)
    (hn : p ∉ w.others) (hc : w.check p = .go) (es : List PidEvent) :
    (w.run ([.start p, .empty p, .die p] ++ es)).servers = [] ∧
      ∀ q, (w.run ([.start p, .empty p, .die p] ++ es)).check q = .thrown := by
  rw [pid_run_append]
  have hp : p ∉ w.pids := by simpa [PidWorld.pids, hs] using hn
  have e : w.run [.start p, .empty p, .die p] = { w with file := some [], servers := [] } := by
    simp [PidWorld.run, PidWorld.step, h0, h1, hp, hc, hs]
  rw [e]
  have := C108_garbage (w := { w with file := some [], servers := [] }) (s := []) rfl rfl (by decide) es
  exact ⟨this.1, this.2.2⟩

example : (PidWorld.run ⟨none, [], [], []⟩ ([.start 5, .empty 5, .die 5] ++ wholeStart 6)).servers = [] := by decide +kernel

/-- **C108**: two servers that start at the same time both run; the file names the later one. -/
theorem C108_race {w : PidWorld} {p q : Nat} (hs : w.servers = []) (hf : w.file = none) (hpq : p ≠ q)
    (p0 : 0 < p) (p1 : p < 2147483648) (hp : p ∉ w.others) (q0 : 0 < q) (q1 : q < 2147483648) (hq : q ∉ w.others) :
    w.run [.start p, .start q, .empty p, .write p, .empty q, .write q] =
      { w with file := some (decimal q ++ [10]), servers := [(q, .running), (p, .running)] } := by
  have hqp : q ≠ p := fun e => hpq e.symm
  simp [PidWorld.run, PidWorld.step, PidWorld.pids, PidWorld.check, hs, hf, p0, p1, q0, q1, hp, hq, hpq, hqp]

/-- **C108**: of two servers that run, the one that is stopped removes the file of the other, and a third one starts
beside it. -/
theorem C108_unguarded {w : PidWorld} {p q r : Nat} (hs : w.servers = [(q, .running), (p, .running)]) (hpq : p ≠ q)
    (hr : r ≠ q) (r0 : 0 < r) (r1 : r < 2147483648) (ho : r ∉ w.others) :
    (w.run (.stop p :: wholeStart r)).servers = [(r, .running), (q, .running)] := by
  have hqp : q ≠ p := fun e => hpq e.symm
  have e : w.step (.stop p) = { w with file := none, servers := [(q, .running)] } := by
    simp [PidWorld.step, hs, hpq, hqp]
  show (({ w.step (.stop p) with } : PidWorld).run (wholeStart r)).servers = _
  rw [e]
  simp [PidWorld.run, wholeStart, PidWorld.step, PidWorld.pids, PidWorld.check, r0, r1, hr, ho]

example : (PidWorld.run ⟨none, [], [7], []⟩ ([.start 5, .start 6, .empty 5, .write 5, .empty 6, .write 6] ++
    .stop 5 :: wholeStart 8)).servers = [(8, .running), (6, .running)] := by decide +kernel

/-- **C108**: whatever other servers do at the same time, a server that has written its number keeps all others out as
long as its file is there, also if the file held a longer number. -/
theorem C108_guards {w : PidWorld} {p : Nat} {s : Bytes} (hm : (p, .opened) ∈ w.servers) (hf : w.file = some s)
    (p0 : 0 < p) (p1 : p < 2147483648) (q : Nat) : (w.step (.write p)).check q = .refused := by
  have e : w.step (.write p) = { w with
      file := some (decimal p ++ [10] ++ s.drop ((decimal p).length + 1))
      servers := (p, .running) :: w.servers.erase (p, .opened) } := by
    simp [PidWorld.step, hm, hf]
  rw [e, pidCheck_written p0 p1 rfl, if_pos (.inr (by simp [PidWorld.pids]))]

example : ((⟨some (ascii "4711\n"), [(4711, .running), (5, .opened)], [], []⟩ : PidWorld).step (.write 5)).file =
    some (ascii "5\n11\n") := by decide +kernel

/-- **C108**: a server that has opened its file when another one is stopped runs without a file, and the next one starts
beside it. -/
theorem C108_lost {w : PidWorld} {p q r : Nat} (hs : w.servers = [(p, .opened), (q, .running)]) (hpq : p ≠ q)
    (hr : r ≠ p) (r0 : 0 < r) (r1 : r < 2147483648) (ho : r ∉ w.others) :
    (w.run [.stop q, .write p]).file = none ∧
      (w.run ([.stop q, .write p] ++ wholeStart r)).servers = [(r, .running), (p, .running)] := by
  have e : w.run [.stop q, .write p] = { w with file := none, servers := [(p, .running)] } := by
    simp [PidWorld.run, PidWorld.step, hs, hpq]
  refine ⟨by rw [e], ?_⟩
  rw [pid_run_append, e]
  simp [PidWorld.run, wholeStart, PidWorld.step, PidWorld.pids, PidWorld.check, r0, r1, hr, ho]

example : (PidWorld.run ⟨none, [], [], []⟩ ([.start 5, .start 6, .empty 6, .write 6, .empty 5, .stop 6, .write 5] ++
    wholeStart 8)).servers = [(8, .running), (5, .running)] := by decide +kernel

/-- **C108**: a file that holds 0 or -1 keeps every server out as well, also when there is no other process at all. -/
theorem C108_zero {w : PidWorld} {s : Bytes} {i : Int32} (hf : w.file = some s)
    (hl : lexInt (streamWord s) = some i) (hi : i = 0 ∨ i = -1) (p : Nat) : w.check p = .refused := by
  rcases hi with rfl | rfl <;> simp [PidWorld.check, hf, hl, PidWorld.answers] <;> decide

/-- **C108**: what a foreign file means: a server starts exactly if its first word is the number of no process and of no
group. -/
theorem C108_foreign {w : PidWorld} {s : Bytes} {i : Int32} (hf : w.file = some s)
    (hl : lexInt (streamWord s) = some i) (p : Nat) :
    w.check p = .go ↔ i ≠ 0 ∧ i ≠ -1 ∧ (0 < i.toInt → i.toInt.toNat ≠ p ∧ i.toInt.toNat ∉ w.pids) ∧
      (i.toInt < 0 → (-i.toInt).toNat ∉ w.groups) := by
  have e0 : i = 0 ↔ i.toInt = 0 := ⟨fun h => by rw [h]; rfl, fun h => Int32.toInt_inj.mp (by rw [h]; rfl)⟩
  have e1 : i = -1 ↔ i.toInt = -1 := ⟨fun h => by rw [h]; rfl, fun h => Int32.toInt_inj.mp (by rw [h]; rfl)⟩
  have hc : w.check p = .go ↔ w.answers p i.toInt = false := by
    simp only [PidWorld.check, hf, hl]
    cases w.answers p i.toInt <;> simp
  rw [hc, ne_eq, ne_eq, e0, e1]
  unfold PidWorld.answers
  by_cases a : i.toInt = 0 ∨ i.toInt = -1
  · rw [if_pos a]
    rcases a with a | a <;> simp [a]
  · rw [if_neg a]
    by_cases b : 0 < i.toInt
    · rw [if_pos b]
      have c : ¬ i.toInt < 0 := by omega
      have d : ¬ i.toInt = 0 := by omega
      have e : ¬ i.toInt = -1 := by omega
      simp [b, c, d, e]
    · rw [if_neg b]
      have c : i.toInt < 0 := by omega
      have d : ¬ i.toInt = 0 := by omega
      have e : ¬ i.toInt = -1 := by omega
      simp [b, c, d, e]

/-- **C108**: only the first word of the file counts: blanks before it and everything after the next blank do not
matter. -/
theorem C108_word {w : PidWorld} {bs x r : Bytes} {b : UInt8} (hb : ∀ c ∈ bs, isBlank c = true) (hb' : isBlank b = true)
    (hx : x ≠ []) (hx' : ∀ c ∈ x, isBlank c = false) (p : Nat) :
    ({ w with file := some (bs ++ x ++ b :: r) } : PidWorld).check p = ({ w with file := some x } : PidWorld).check p := by
  obtain ⟨a, t, e⟩ := List.exists_cons_of_ne_nil hx
  have ha : isBlank a = false := hx' a (by rw [e]; simp)
  have h1 : streamWord (bs ++ x ++ b :: r) = x := by
    unfold streamWord
    rw [List.append_assoc, List.dropWhile_append_of_pos hb]
    have h2 : (x ++ b :: r).dropWhile isBlank = x ++ b :: r := by rw [e]; simp [ha]
    rw [h2, List.takeWhile_append_of_pos (by intro c hc; simp [hx' c hc])]
    simp [hb']
  have h3 : streamWord x = x := by
    unfold streamWord
    have h2 : x.dropWhile isBlank = x := by rw [e]; simp [ha]
    rw [h2]
    have h4 := List.takeWhile_append_of_pos (p := fun c => !isBlank c) (l₁ := x) (l₂ := [])
      (by intro c hc; simp [hx' c hc])
    simpa using h4
  have ans : ∀ i, ({ w with file := some (bs ++ x ++ b :: r) } : PidWorld).answers p i =
      ({ w with file := some x } : PidWorld).answers p i := fun i => rfl
  simp only [PidWorld.check, h1, h3, ans]

example : (⟨some (ascii " \t12 x"), [], [], []⟩ : PidWorld).check 3 = .go ∧
    (⟨some (ascii " \t12 x"), [], [12], []⟩ : PidWorld).check 3 = .refused := by decide +kernel
example : (⟨some (ascii " 12x"), [], [], []⟩ : PidWorld).check 3 = .thrown := by decide +kernel
example : (⟨some (ascii " -12\nx"), [], [], [12]⟩ : PidWorld).check 3 = .refused := by decide +kernel

end Flare
