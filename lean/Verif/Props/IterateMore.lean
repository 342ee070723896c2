import Verif.Props.Iterate
import Verif.Props.DumpKey

/-! Property C99 for the two other users of an iteration: the initial copy to another cluster and the list of keys. -/
namespace Flare

/-- The copy to another cluster with nobody else at work: one record for each key of the partition that the iteration returns, also for
the expired ones (C49). -/
theorem quiet_copy (b : Bytes → Option Bool) (env : Env) (ks : List Bytes) (hnul : ∀ k ∈ ks, (0 : UInt8) ∉ k)
    (hb : ∀ k ∈ ks, b k ≠ none) {s : Store} (hs : s.Ok) (hl : s.iterLock = true) (e : Entry) :
    (dumpReplLoop b s e (quietRounds env ks)).ended = some .fin ∧
    (dumpReplLoop b s e (quietRounds env ks)).sent.map (·.key) = ks.filter (fun k => b k = some true) := by
  induction ks generalizing s e with
  | nil =>
    simp only [quietRounds, List.map_nil, List.nil_append, dumpReplLoop, run, iterNext_locked hl, List.filter_nil, and_self]
  | cons k ks ih =>
    have hnul' : ∀ k ∈ ks, (0 : UInt8) ∉ k := fun x hx => hnul x (List.mem_cons_of_mem _ hx)
    have hb' : ∀ k ∈ ks, b k ≠ none := fun x hx => hb x (List.mem_cons_of_mem _ hx)
    have hkk := takeWhile_nonzero (hnul k List.mem_cons_self)
    have hq : quietRounds env (k :: ks) = { ans := .continue_ k, env := env } :: quietRounds env ks := rfl
    have hit : iterNext s (.continue_ k) = .continue_ k := by
      rw [iterNext_locked hl]; simp only [hkk]
    rw [hq]
    cases hbk : b k with
    | none => exact absurd hbk (hb k List.mem_cons_self)
    | some v =>
      cases v with
      | false =>
        have : dumpReplLoop b s e ({ ans := .continue_ k, env := env } :: quietRounds env ks) =
            dumpReplLoop b s { e with key := k } (quietRounds env ks) := by
          rw [dumpReplLoop]
          simp only [run, hit, hbk, Bool.false_eq_true, if_false]
        rw [this]
        obtain ⟨h1, h2⟩ := ih hnul' hb' hs hl { e with key := k }
        exact ⟨h1, by rw [h2, List.filter_cons]; simp [hbk]⟩
      | true =>
        obtain ⟨f1, f2, -, f4, -⟩ := get_reused hs env e k
        have hs2 : (get s env { e with key := k } {}).1.Ok := step_ok hs env (.get { e with key := k } {})
        have hl2 : (get s env { e with key := k } {}).1.iterLock = true :=
          (step_iterLock s env (.get { e with key := k } {})).trans hl
        have : dumpReplLoop b s e ({ ans := .continue_ k, env := env } :: quietRounds env ks) =
            (dumpReplLoop b (get s env { e with key := k } {}).1 (get s env { e with key := k } {}).2.e
              (quietRounds env ks)).cons (get s env { e with key := k } {}).2.e := by
          rw [dumpReplLoop]
          simp only [run, hit, hbk, Bool.false_eq_true, if_false, Bool.not_true, f2, ne_eq, not_true]
        rw [this]
        obtain ⟨h1, h2⟩ := ih hnul' hb' hs2 hl2 (get s env { e with key := k } {}).2.e
        refine ⟨h1, ?_⟩
        simp only [DumpRun.cons, List.map_cons, h2, f4, List.filter_cons, hbk, decide_true, if_true]

/-- C99.  The initial copy to another cluster with the hash database of Tokyo Cabinet, with nobody else at work, sends a record for every key of
the partition, once. -/
theorem C99_tch_copy {b : Bytes → Option Bool} {s : Store} (hs : s.Ok) (hl : s.iterLock = false) (env : Env) {f : Records}
    (hf : f.Ok) (hnul : ∀ k ∈ f.map (·.2), (0 : UInt8) ∉ k) (hb : ∀ k ∈ f.map (·.2), b k ≠ none) {n : Nat} (hn : f.length < n) :
    let d := dumpReplLoop b (iterBegin s true).1 { key := [] }
      (quietRounds env (walk tchNext (fun k => tchChange (.out k)) (readGone b s env) n (f, 0)).1)
    d.ended = some .fin ∧ d.sent.map (·.key) = (f.map (·.2)).filter fun k => b k = some true := by
  have h : (walk tchNext (fun k => tchChange (.out k)) (readGone b s env) n (f, 0)).1 = f.map (·.2) :=
    (tch_walk (readGone b s env) n (pre := []) (rest := f) hf (c := 0) (fun r hr => nomatch hr) (fun r _ => Nat.zero_le _) hn).1
  obtain ⟨h1, h2, -⟩ := begun hs hl
  intro d
  simp only [d, h]
  exact quiet_copy b env _ hnul hb h1 h2 _

/-- C99 fails for the copy to another cluster with Kyoto Cabinet: what is behind the first expired record of the partition is not
sent, yet the copy ends as if it were complete. -/
theorem C99_kch_copy_lost {b : Bytes → Option Bool} {s : Store} (hs : s.Ok) (hl : s.iterLock = false) (env : Env) {f : Records}
    (hf : f.Ok) (hnul : ∀ k ∈ f.map (·.2), (0 : UInt8) ∉ k) (hb : ∀ k ∈ f.map (·.2), b k ≠ none) {n : Nat} (hn : f.length < n)
    {xs ys : List Bytes} {x y : Bytes} (hfx : f.map (·.2) = xs ++ x :: y :: ys) (hxs : ∀ k ∈ xs, readGone b s env k = false)
    (hx : readGone b s env x = true) :
    let d := dumpReplLoop b (iterBegin s true).1 { key := [] }
      (quietRounds env (walk kchNext (fun k => kchChange (.out k)) (readGone b s env) n (f, none)).1)
    d.ended = some .fin ∧ y ∉ d.sent.map (·.key) := by
  have h := (kch_walk_start (readGone b s env) n hf hn).1
  obtain ⟨h1, h2, -⟩ := begun hs hl
  have hsub := passing_sublist (readGone b s env) (f.map (·.2))
  intro d
  simp only [d, h]
  obtain ⟨q1, q2⟩ := quiet_copy b env _ (fun k hk => hnul k (hsub.subset hk)) (fun k hk => hb k (hsub.subset hk)) h1 h2 { key := [] }
  refine ⟨q1, ?_⟩
  rw [q2]
  intro hy
  have hy := (List.mem_filter.1 hy).1
  have hnd := hf.2
  rw [hfx] at hy hnd
  rw [passing_lost _ hxs hx] at hy
  have hs2 := passing_sublist (readGone b s env) ys
  simp only [List.nodup_append, List.nodup_cons, List.mem_cons, not_or] at hnd
  simp only [List.mem_append, List.mem_cons] at hy
  rcases hy with h | h | h
  · exact hnd.2.2 y h y (Or.inr (Or.inl rfl)) rfl
  · exact hnd.2.1.1.1 h.symm
  · exact hnd.2.1.2.1 (hs2.subset h)

/-- C99 fails for the copy to another cluster with the B+ tree in the same way. -/
theorem C99_tcb_copy_lost {b : Bytes → Option Bool} {s : Store} (hs : s.Ok) (hl : s.iterLock = false) (env : Env) {t : Leaves}
    (ht : t.Ok) (hnul : ∀ k ∈ t.keys, (0 : UInt8) ∉ k) (hb : ∀ k ∈ t.keys, b k ≠ none) {n : Nat} (hn : t.keys.length < n)
    {l : Leaf} (hlt : l ∈ t) {xs ys : List Bytes} {x y : Bytes} (hlk : l.keys = xs ++ x :: y :: ys)
    (hxs : ∀ k ∈ xs, readGone b s env k = false) (hx : readGone b s env x = true) :
    let d := dumpReplLoop b (iterBegin s true).1 { key := [] }
      (quietRounds env (walk tcbNext (fun k => tcbChange (.out k)) (readGone b s env) n (t, .start)).1)
    d.ended = some .fin ∧ y ∉ d.sent.map (·.key) := by
  have h := (tcb_walk_start (readGone b s env) n ht hn).1
  obtain ⟨h1, h2, -⟩ := begun hs hl
  have hsub := tcb_passing_sublist (readGone b s env) t
  intro d
  simp only [d, h]
  obtain ⟨q1, q2⟩ := quiet_copy b env _ (fun k hk => hnul k (hsub.subset hk)) (fun k hk => hb k (hsub.subset hk)) h1 h2 { key := [] }
  refine ⟨q1, ?_⟩
  rw [q2]
  intro hy
  exact tcb_passed_over ht hlt hlk hxs hx (List.mem_filter.1 hy).1

example : (readGone (fun _ => some true) dumpEx { now := 600 } [98] = true) ∧
    (dumpReplLoop (fun _ => some true) (iterBegin dumpEx true).1 { key := [] }
      (quietRounds { now := 600 } (walk tcbNext (fun k => tcbChange (.out k)) (readGone (fun _ => some true) dumpEx { now := 600 }) 4
        (treeEx, .start)).1)).sent.map (·.key) = [[97], [98]] := by decide +kernel

/-- C99.  `dump_key` reads no record, so that nothing disappears under its cursor: with all three engines, and with nobody else at work, it lists
every key of the partition that is in the storage, and the client reads this list. -/
theorem C99_list {s : Store} (hs : s.Ok) (b : Bytes → Option Bool) {f : Records} (hf : f.Ok) {t : Leaves} (ht : t.Ok)
    (hkf : ∀ k, k ∈ f.map (·.2) ↔ dbGet s.db k ≠ none) (hkt : ∀ k, k ∈ t.keys ↔ dbGet s.db k ≠ none)
    (hp : ∀ k, dbGet s.db k ≠ none → PlainKey k 8192 ∧ b k ≠ none) {n : Nat} (hn : f.length < n) (hm : t.keys.length < n)
    (w more : Bytes) (hw : w.length = 8192) (c : Nat) {ks : List Bytes}
    (hks : ks = (walk tchNext (fun k => tchChange (.out k)) (fun _ => false) n (f, 0)).1 ∨
      ks = (walk kchNext (fun k => kchChange (.out k)) (fun _ => false) n (f, none)).1 ∨
      ks = (walk tcbNext (fun k => tcbChange (.out k)) (fun _ => false) n (t, .start)).1) :
    ∃ l, dumpKeyClient w (fun _ => false) n c
        (dumpKeyServer b true (ks.map (fun k => { ans := .continue_ k }) ++ [{ ans := .end_ }]) ++ more) = (l, .ok) ∧
      l.Nodup ∧ ∀ k, k ∈ l ↔ b k = some true ∧ dbGet s.db k ≠ none := by
  have main : ∀ ks : List Bytes, ks.Nodup → (∀ k, k ∈ ks ↔ dbGet s.db k ≠ none) → ks.length < n →
      ∃ l, dumpKeyClient w (fun _ => false) n c
          (dumpKeyServer b true (ks.map (fun k => { ans := .continue_ k }) ++ [{ ans := .end_ }]) ++ more) = (l, .ok) ∧
        l.Nodup ∧ ∀ k, k ∈ l ↔ b k = some true ∧ dbGet s.db k ≠ none := by
    intro ks h1 h2 h3
    obtain ⟨l, g1, g2, g3, -⟩ := C85_listed_partial hs b ks h1 h2 (fun k hk => (hp k ((h2 k).1 hk)).1)
      (fun k hk => (hp k ((h2 k).1 hk)).2) w more hw n h3 c
    exact ⟨l, g1, g2, g3⟩
  have hpass : (f.map (·.2)).length < n := by rw [List.length_map]; exact hn
  rcases hks with rfl | rfl | rfl
  · have : (walk tchNext (fun k => tchChange (.out k)) (fun _ => false) n (f, 0)).1 = f.map (·.2) :=
      (tch_walk (fun _ => false) n (pre := []) (rest := f) hf (c := 0) (fun r hr => nomatch hr) (fun r _ => Nat.zero_le _) hn).1
    rw [this]
    exact main _ hf.2 hkf hpass
  · rw [(kch_walk_start (fun _ => false) n hf hn).1, passing_all _ _ (fun _ _ => rfl)]
    exact main _ hf.2 hkf hpass
  · have : (walk tcbNext (fun k => tcbChange (.out k)) (fun _ => false) n (t, .start)).1 = t.keys := by
      rw [(tcb_walk_start (fun _ => false) n ht hm).1]
      simp only [Leaves.keys]
      congr 1
      funext l
      exact passing_all _ _ (fun _ _ => rfl)
    rw [this]
    exact main _ ht.2 hkt hm

example : (walk tcbNext (fun k => tcbChange (.out k)) (fun _ => false) 4 (treeEx, .start)).1 = [[97], [98], [99]] ∧
    dumpKeyServer (fun _ => some true) true (([[97], [98], [99]] : List Bytes).map (fun k => { ans := .continue_ k }) ++ [{ ans := .end_ }]) =
      ascii "KEY a\r\nKEY b\r\nKEY c\r\nEND\r\n" := by decide +kernel

end Flare
