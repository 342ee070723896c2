import Verif.Lemmas.IterateDump

/-! Property C99: which keys an iteration over a storage returns, and what a dump therefore sends. -/
namespace Flare

/-! ### The hash database of Tokyo Cabinet -/

/-- C99.  Whatever other threads write, remove or rewrite between two calls of `iter_next`, and whatever place they write at: a
key whose record they leave alone is returned exactly once by an iteration that reaches its end. -/
theorem C99_tch {f : Records} (hf : f.Ok) {k : Bytes} (hk : k ∈ f.map (·.2)) (rounds : List (List FileEv))
    (ht : ∀ es ∈ rounds, ∀ e ∈ es, ¬ e.Touches k) (he : (iterate tchNext tchChange (f, 0) rounds).2 = true) :
    (iterate tchNext tchChange (f, 0) rounds).1.count k = 1 := by
  obtain ⟨⟨o, k'⟩, hm, rfl⟩ := List.mem_map.1 hk
  rw [tch_count rounds hf hm ht 0 he, if_pos (Nat.zero_le _)]

example : iterate tchNext tchChange ([(16, [97]), (32, [98]), (48, [99])], 0)
    [[], [.out [97], .put 16 [100]], [.put 64 [101], .move [98] 80], [.out [101]], [], []] =
      ([[97], [98], [99], [98]], true) := by decide +kernel

/-- C99.  A dump with the hash database of Tokyo Cabinet, with nobody else at work: it ends with END and has sent, once, every visible
record of the partition and nothing else; the expired records of the partition are gone, in the storage and in the file. -/
theorem C99_tch_dump {b : Bytes → Option Bool} {s : Store} (hs : s.Ok) (hl : s.iterLock = false) (env : Env) {f : Records}
    (hf : f.Ok) (hk : ∀ k, k ∈ f.map (·.2) ↔ dbGet s.db k ≠ none) (hnul : ∀ k ∈ f.map (·.2), (0 : UInt8) ∉ k)
    (hb : ∀ k ∈ f.map (·.2), b k ≠ none) {n : Nat} (hn : f.length < n) {ks : List Bytes} {f' : Records} {c : Nat}
    (hw : walk tchNext (fun k => tchChange (.out k)) (readGone b s env) n (f, 0) = (ks, true, (f', c))) :
    (dumpServer b s true (quietRounds env ks)).ended = some .fin ∧
    ((dumpServer b s true (quietRounds env ks)).sent.map (·.key)).Nodup ∧
    (∀ e, e ∈ (dumpServer b s true (quietRounds env ks)).sent ↔
      b e.key = some true ∧ ∃ it, lookup s env.now e.key = some it ∧ e = it.entry e.key) ∧
    (∀ k, k ∈ f'.map (·.2) ↔ dbGet (dumpServer b s true (quietRounds env ks)).store.db k ≠ none) ∧
    ∀ k, k ∈ f'.map (·.2) ↔ k ∈ f.map (·.2) ∧ readGone b s env k = false := by
  have h := (tch_walk (readGone b s env) n (pre := []) (rest := f) hf (c := 0) (fun r hr => nomatch hr)
    (fun r _ => Nat.zero_le _) hn).1
  have hkeys := walk_keys (next := tchNext) (out := fun k => tchChange (.out k)) (fun s => s.1.map (·.2)) (by
      intro s k s' h
      simp only [tchNext] at h
      split at h
      · exact nomatch h
      · simp only [Option.some.injEq, Prod.mk.injEq] at h
        rw [← h.2]) (by
      intro k s x
      simp only [tchChange, Records.apply, List.mem_map, Records.mem_out]
      constructor
      · rintro ⟨r, ⟨h1, h2⟩, rfl⟩; exact ⟨⟨r, h1, rfl⟩, h2⟩
      · rintro ⟨⟨r, h1, rfl⟩, h2⟩; exact ⟨r, ⟨h1, h2⟩, rfl⟩) (readGone b s env) n (f, 0)
  simp only [List.nil_append, hw] at h hkeys
  subst h
  obtain ⟨d1, d2, d3, d4, -⟩ := quiet_dump (b := b) hs hl env hf.2 hnul hb
  refine ⟨d1, d2, fun e => (d3 e).trans ⟨fun g => ⟨g.1, g.2.2⟩, ?_⟩, fun k => ?_, fun k => (hkeys k).trans ?_⟩
  · rintro ⟨g1, it, hit, he⟩
    obtain ⟨raw, hraw, -⟩ := (lookup_eq_some hs).1 hit
    exact ⟨g1, (hk _).2 (by rw [hraw]; exact fun h => nomatch h), it, hit, he⟩
  · rw [hkeys k, d4 k, hk k]
  · constructor
    · rintro ⟨g1, g2⟩
      refine ⟨g1, ?_⟩
      cases hg : readGone b s env k with
      | false => rfl
      | true => exact absurd ⟨hg, g1⟩ g2
    · rintro ⟨g1, g2⟩
      exact ⟨g1, fun ⟨g, _⟩ => by rw [g2] at g; exact nomatch g⟩

/-- The file of the example: the records of `dumpEx`, of which "b" expires at 500. -/
def fileEx : Records := [(16, [97]), (32, [98]), (48, [99])]

example : walk tchNext (fun k => tchChange (.out k)) (readGone (fun _ => some true) dumpEx { now := 600 }) 4 (fileEx, 0) =
      ([[97], [98], [99]], true, ([(16, [97]), (48, [99])], 49)) ∧
    (dumpServer (fun _ => some true) dumpEx true (quietRounds { now := 600 } [[97], [98], [99]])).sent.map (·.key) =
      [[97], [99]] := by decide +kernel

/-! ### Kyoto Cabinet -/

/-- C99, in part.  With Kyoto Cabinet the same holds if no other thread removes the record returned last, or rewrites it elsewhere,
before the next call of `iter_next`. -/
theorem C99_kch_partial {f : Records} (hf : f.Ok) {k : Bytes} (hk : k ∈ f.map (·.2)) (rounds : List (List FileEv))
    (ht : ∀ es ∈ rounds, ∀ e ∈ es, ¬ e.Touches k)
    (hspare : ∀ pre es post, rounds = pre ++ es :: post → ∀ e ∈ es, ∀ x, e.Touches x →
      (iterate kchNext kchChange (f, none) pre).1.getLast? ≠ some x)
    (he : (iterate kchNext kchChange (f, none) rounds).2 = true) :
    (iterate kchNext kchChange (f, none) rounds).1.count k = 1 := by
  have key : iterate kchNext kchChange (f, none) rounds = iterate tchNext tchChange (f, 0) rounds := by
    cases rounds with
    | nil => rfl
    | cons es rest =>
      have hf' := Records.applys_ok es hf
      have hc := kch_changes_none es f
      simp only [iterate, hc, tch_changes]
      generalize hg : es.foldl Records.apply f = f' at *
      cases hn : f'.from_ 0 with
      | none => simp only [kchNext, tchNext, hn]
      | some r =>
        obtain ⟨o', k'⟩ := r
        obtain ⟨h1, -, -⟩ := Records.from_some hf'.1 hn
        have := kch_spared rest hf' h1 (by
          intro pre es' post e ev hev y hy
          have := hspare (es :: pre) es' post (by rw [e]; rfl) ev hev y hy
          simpa only [iterate, hc, kchNext, hn] using this)
        simp only [kchNext, tchNext, hn, this]
  rw [key] at he ⊢
  exact C99_tch hf hk rounds ht he

example : iterate kchNext kchChange ([(16, [97]), (32, [98]), (48, [99])], none)
    [[], [.put 24 [100]], [.out [97]], [.move [97] 8, .out [100]], [], []] =
      ([[97], [100], [98], [99]], true) := by decide +kernel

/-- C99 fails with Kyoto Cabinet: if the record returned last is removed before the next call, the record behind it is passed over; it is
not returned in the rest of the iteration either, whatever happens, though nobody has touched it. -/
theorem C99_kch_skip {f : Records} (hf : f.Ok) {o o' : Nat} {x y : Bytes} (hm : (o, x) ∈ f)
    (hy : f.from_ (o + 1) = some (o', y)) (rest : List (List FileEv)) (ht : ∀ es ∈ rest, ∀ e ∈ es, ¬ e.Touches y) :
    y ∉ (iterate kchNext kchChange (f, some o) ([.out x] :: rest)).1 := by
  obtain ⟨hy1, hy2, hy3⟩ := Records.from_some hf.1 hy
  simp only at hy2 hy3
  have hxy : y ≠ x := by
    intro e
    have := congrArg Prod.fst (Records.key_inj hf.2 hy1 hm e)
    simp only at this
    omega
  have hesc : kchEscape f x (some o) = some (o + 1) := by
    simp only [kchEscape]
    rw [if_pos]
    exact List.any_eq_true.2 ⟨(o, x), hm, by simp⟩
  have hf' := Records.out_ok hf x
  have hy' : (o', y) ∈ f.out x := Records.mem_out.2 ⟨hy1, hxy⟩
  have hfr : (f.out x).from_ (o + 1) = some (o', y) := by
    cases hn : (f.out x).from_ (o + 1) with
    | none => exact absurd (Records.from_none hn _ hy') (by simp only; omega)
    | some r =>
      obtain ⟨g1, g2, g3⟩ := Records.from_some hf'.1 hn
      have a1 := g3 _ hy' hy2
      have a2 := hy3 _ (Records.mem_out.1 g1).1 g2
      rw [Records.place_inj hf'.1 g1 hy' (by simp only at a1 ⊢; omega)]
  simp only [iterate, List.foldl_cons, List.foldl_nil, kchChange, Records.apply, hesc]
  cases hn : (f.out x).from_ (o' + 1) with
  | none => simp only [kchNext, hfr, hn]; exact fun h => nomatch h
  | some r =>
    obtain ⟨o2, k2⟩ := r
    obtain ⟨g1, g2, -⟩ := Records.from_some hf'.1 hn
    simp only at g2
    simp only [kchNext, hfr, hn, List.mem_cons, not_or]
    refine ⟨?_, kch_past rest hf' hy' ht (by omega)⟩
    intro e
    have := congrArg Prod.fst (Records.key_inj hf'.2 hy' g1 e)
    simp only at this
    omega

example : iterate kchNext kchChange ([(16, [97]), (32, [98]), (48, [99])], none) [[], [.out [97]], [], []] =
      ([[97], [99]], true) ∧
    iterate kchNext kchChange ([(16, [97]), (32, [98]), (48, [99])], none) [[], [.move [97] 80], [], [], []] =
      ([[97], [99], [97]], true) := by decide +kernel

/-- C99.  Exactly what a dump sends with Kyoto Cabinet and nobody else at work: reading an expired record removes it, and the record
behind it is passed over. -/
theorem C99_kch_dump {b : Bytes → Option Bool} {s : Store} (hs : s.Ok) (hl : s.iterLock = false) (env : Env) {f : Records}
    (hf : f.Ok) (hk : ∀ k, k ∈ f.map (·.2) ↔ dbGet s.db k ≠ none) (hnul : ∀ k ∈ f.map (·.2), (0 : UInt8) ∉ k)
    (hb : ∀ k ∈ f.map (·.2), b k ≠ none) {n : Nat} (hn : f.length < n) {ks : List Bytes} {f' : Records} {c : Option Nat}
    (hw : walk kchNext (fun k => kchChange (.out k)) (readGone b s env) n (f, none) = (ks, true, (f', c))) :
    (dumpServer b s true (quietRounds env ks)).ended = some .fin ∧
    ((dumpServer b s true (quietRounds env ks)).sent.map (·.key)).Nodup ∧
    (∀ e, e ∈ (dumpServer b s true (quietRounds env ks)).sent ↔
      b e.key = some true ∧ e.key ∈ passing (readGone b s env) (f.map (·.2)) ∧
        ∃ it, lookup s env.now e.key = some it ∧ e = it.entry e.key) ∧
    ∀ k, k ∈ f'.map (·.2) ↔ dbGet (dumpServer b s true (quietRounds env ks)).store.db k ≠ none := by
  have h := (kch_walk_start (readGone b s env) n hf hn).1
  have hkeys := walk_keys (next := kchNext) (out := fun k => kchChange (.out k)) (fun s => s.1.map (·.2)) (by
      intro s k s' h
      simp only [kchNext] at h
      repeat' split at h
      all_goals first
        | (simp only [Option.some.injEq, Prod.mk.injEq] at h; rw [← h.2])
        | exact absurd h (by simp)) (by
      intro k s x
      simp only [kchChange, Records.apply, List.mem_map, Records.mem_out]
      constructor
      · rintro ⟨r, ⟨h1, h2⟩, rfl⟩; exact ⟨⟨r, h1, rfl⟩, h2⟩
      · rintro ⟨⟨r, h1, rfl⟩, h2⟩; exact ⟨r, ⟨h1, h2⟩, rfl⟩) (readGone b s env) n (f, none)
  simp only [hw] at h hkeys
  subst h
  have hsub := passing_sublist (readGone b s env) (f.map (·.2))
  obtain ⟨d1, d2, d3, d4, -⟩ := quiet_dump (b := b) hs hl env (hf.2.sublist hsub) (fun k h => hnul k (hsub.subset h))
    (fun k h => hb k (hsub.subset h))
  exact ⟨d1, d2, d3, fun k => by rw [hkeys k, d4 k, hk k]⟩

/-- C99 fails: the record behind the first expired one of the partition is not sent, though it is visible and the dump ends with END. -/
theorem C99_kch_dump_lost {b : Bytes → Option Bool} {s : Store} (hs : s.Ok) (hl : s.iterLock = false) (env : Env) {f : Records}
    (hf : f.Ok) (hk : ∀ k, k ∈ f.map (·.2) ↔ dbGet s.db k ≠ none) (hnul : ∀ k ∈ f.map (·.2), (0 : UInt8) ∉ k)
    (hb : ∀ k ∈ f.map (·.2), b k ≠ none) {n : Nat} (hn : f.length < n) {ks : List Bytes} {f' : Records} {c : Option Nat}
    (hw : walk kchNext (fun k => kchChange (.out k)) (readGone b s env) n (f, none) = (ks, true, (f', c)))
    {xs ys : List Bytes} {x y : Bytes} (hfx : f.map (·.2) = xs ++ x :: y :: ys) (hxs : ∀ k ∈ xs, readGone b s env k = false)
    (hx : readGone b s env x = true) :
    (dumpServer b s true (quietRounds env ks)).ended = some .fin ∧
    y ∉ (dumpServer b s true (quietRounds env ks)).sent.map (·.key) ∧
    dbGet (dumpServer b s true (quietRounds env ks)).store.db y = dbGet s.db y := by
  obtain ⟨d1, -, d3, -⟩ := C99_kch_dump hs hl env hf hk hnul hb hn hw
  have hks : ks = passing (readGone b s env) (f.map (·.2)) := by
    have := (kch_walk_start (readGone b s env) n hf hn).1
    rw [hw] at this
    exact this
  have hnd := hf.2
  have hny : y ∉ ks := by
    rw [hks, hfx, passing_lost _ hxs hx]
    rw [hfx] at hnd
    have hsub := passing_sublist (readGone b s env) ys
    simp only [List.nodup_append, List.nodup_cons, List.mem_cons, not_or] at hnd
    simp only [List.mem_append, List.mem_cons, not_or]
    refine ⟨fun h => hnd.2.2 y h y (Or.inr (Or.inl rfl)) rfl, fun h => hnd.2.1.1.1 h.symm, fun h => hnd.2.1.2.1 (hsub.subset h)⟩
  refine ⟨d1, ?_, ?_⟩
  · intro h
    obtain ⟨e, he, rfl⟩ := List.mem_map.1 h
    rw [← hks] at d3
    exact hny ((d3 e).1 he).2.1
  · have hsub := passing_sublist (readGone b s env) (f.map (·.2))
    rw [← hks] at hsub
    exact (quiet_dump (b := b) hs hl env (hf.2.sublist hsub) (fun k h => hnul k (hsub.subset h))
      (fun k h => hb k (hsub.subset h))).2.2.2.2 y hny

example : walk kchNext (fun k => kchChange (.out k)) (readGone (fun _ => some true) dumpEx { now := 600 }) 4 (fileEx, none) =
      ([[97], [98]], true, ([(16, [97]), (48, [99])], some 33)) ∧
    (dumpServer (fun _ => some true) dumpEx true (quietRounds { now := 600 } [[97], [98]])).sent.map (·.key) = [[97]] ∧
    (lookup dumpEx 600 [99]).isSome = true := by decide +kernel

/-! ### The B+ tree of Tokyo Cabinet -/

/-- C99, in part.  With a B+ tree every key that stays is returned, if nobody removes a record that the cursor has passed or is at, and the
leaf of the cursor is not dropped.  Records may come anywhere, records may go that the cursor has not reached, leaves may be divided. -/
theorem C99_tcb_partial {t : Leaves} (ht : t.Ok) {k : Bytes} (hk : k ∈ t.keys) (rounds : List (List TreeEv))
    (hh : CursorHarmless t .start rounds) (hne : ∀ es ∈ rounds, TreeEv.out k ∉ es)
    (he : (iterate tcbNext tcbChange (t, .start) rounds).2 = true) :
    k ∈ (iterate tcbNext tcbChange (t, .start) rounds).1 :=
  tcb_returned rounds ht hh hk hne he

/-- C99, in part.  In particular if records only come and leaves are only divided. -/
theorem C99_tcb_grow_partial {t : Leaves} (ht : t.Ok) {k : Bytes} (hk : k ∈ t.keys) (rounds : List (List TreeEv))
    (hh : ∀ es ∈ rounds, ∀ e ∈ es, (∃ id p x, e = .put id p x) ∨ ∃ id n new, e = .split id n new)
    (he : (iterate tcbNext tcbChange (t, .start) rounds).2 = true) :
    k ∈ (iterate tcbNext tcbChange (t, .start) rounds).1 := by
  have one : ∀ (es : List TreeEv) (t : Leaves) (p : TreePos),
      (∀ e ∈ es, (∃ id p x, e = .put id p x) ∨ ∃ id n new, e = .split id n new) → TreeHarmless t p es := by
    intro es
    induction es with
    | nil => exact fun _ _ _ => trivial
    | cons e es ih =>
      intro t p h
      refine ⟨?_, ih _ _ (fun e' h' => h e' (List.mem_cons_of_mem _ h'))⟩
      rcases h e List.mem_cons_self with ⟨_, _, _, rfl⟩ | ⟨_, _, _, rfl⟩ <;> trivial
  have all : ∀ (rounds : List (List TreeEv)) (t : Leaves) (p : TreePos),
      (∀ es ∈ rounds, ∀ e ∈ es, (∃ id p x, e = .put id p x) ∨ ∃ id n new, e = .split id n new) → CursorHarmless t p rounds := by
    intro rounds
    induction rounds with
    | nil => exact fun _ _ _ => trivial
    | cons es rest ih =>
      intro t p h
      exact ⟨one es t p (h es List.mem_cons_self), fun _ _ _ => ih _ _ (fun es' h' => h es' (List.mem_cons_of_mem _ h'))⟩
  refine C99_tcb_partial ht hk rounds (all rounds t .start hh) ?_ he
  intro es hes hm
  rcases hh es hes _ hm with ⟨_, _, _, h⟩ | ⟨_, _, _, h⟩ <;> exact nomatch h

example : iterate tcbNext tcbChange ([⟨1, [[98], [100]]⟩, ⟨2, [[102]]⟩], .start)
    [[], [.put 1 0 [97]], [.split 1 1 3], [.put 2 0 [101], .out [102]], [], []] =
      ([[98], [98], [98], [100], [101]], true) := by decide +kernel

/-- C99 fails with a B+ tree: the cursor is at index `i` of its leaf, a record up to there is removed, and the record behind is passed over;
it is not returned in the rest of the iteration either if records only go, though nobody has touched it. -/
theorem C99_tcb_skip {pre ls : Leaves} {l : Leaf} (ht : Leaves.Ok (pre ++ l :: ls)) {xs ys : List Bytes} {y z : Bytes}
    (hl : l.keys = xs ++ y :: ys) (hz : z ∈ xs) (rest : List (List TreeEv))
    (hr : ∀ es ∈ rest, ∀ e ∈ es, (∃ k, e = .out k) ∨ ∃ id, e = .drop id) :
    y ∉ (iterate tcbNext tcbChange (pre ++ l :: ls, .at l.id (xs.length - 1)) ([.out z] :: rest)).1 := by
  have hp := Leaves.ids_pre ht.1
  have hk := ht.2
  rw [Leaves.keys_append, Leaves.keys_cons, List.nodup_append, List.nodup_append] at hk
  obtain ⟨-, ⟨hk1, -, hk3⟩, -⟩ := hk
  have hlen : 0 < xs.length := List.length_pos_of_mem hz
  have hnd := hk1
  rw [hl, List.nodup_append, List.nodup_cons] at hnd
  have hyz : y ≠ z := fun e => hnd.2.2 z hz y List.mem_cons_self e.symm
  have hout := Leaves.apply_ok ht (.out z)
  have hna : y ∉ (Leaves.apply (pre ++ l :: ls) (.out z)).after (.at l.id (xs.length - 1)) := by
    simp only [Leaves.apply, Leaves.out, List.map_append, List.map_cons]
    rw [Leaves.after_at (id := l.id) (by
        intro a ha
        obtain ⟨a', ha', rfl⟩ := List.mem_map.1 ha
        exact hp a' ha') (l := { l with keys := l.keys.filter fun x => decide (x ≠ z) }) rfl]
    intro h
    rcases List.mem_append.1 h with h | h
    · simp only [hl, List.filter_append, List.drop_append] at h
      have hlt : (xs.filter fun x => decide (x ≠ z)).length < xs.length :=
        List.length_filter_lt_length_iff_exists.2 ⟨z, hz, by simp⟩
      rw [List.drop_eq_nil_of_le (by omega), List.nil_append, List.filter_cons, if_pos (by simpa using hyz)] at h
      obtain ⟨m, hm⟩ : ∃ m, xs.length - 1 + 1 - (xs.filter fun x => decide (x ≠ z)).length = m + 1 :=
        ⟨xs.length - 1 - (xs.filter fun x => decide (x ≠ z)).length, by omega⟩
      rw [hm, List.drop_succ_cons] at h
      exact hnd.2.1.1 (List.mem_filter.1 (List.mem_of_mem_drop h)).1
    · have := Leaves.out_keys ls z
      simp only [Leaves.out] at this
      rw [this, List.mem_filter] at h
      exact hk3 y (by rw [hl]; simp) y h.1 rfl
  have := tcb_past ([] :: rest) hout (by
    intro es hes e he
    rcases List.mem_cons.1 hes with rfl | hes
    · exact nomatch he
    · exact hr es hes e he) hna
  simpa only [iterate, List.foldl_cons, List.foldl_nil, tcbChange] using this

/-- C99 fails with a B+ tree: if all records of the leaf of the cursor have gone and the leaf has been dropped from memory, the iteration is over, though
no record of the leaves behind has been returned. -/
theorem C99_tcb_dropped {pre ls : Leaves} {l : Leaf} (ht : Leaves.Ok (pre ++ l :: ls)) (hl : l.keys = []) (i : Nat)
    (rest : List (List TreeEv)) :
    iterate tcbNext tcbChange (pre ++ l :: ls, .at l.id i) ([.drop l.id] :: rest) = ([], true) := by
  have hno : ∀ x ∈ pre ++ ls, x.id ≠ l.id := by
    intro x hx e
    have := (List.perm_middle (l₁ := pre) (l₂ := ls) (a := l)).map (·.id)
    have h := ht.1
    rw [this.nodup_iff, List.map_cons, List.nodup_cons] at h
    exact h.1 (List.mem_map.2 ⟨x, hx, e⟩)
  have hd : Leaves.apply (pre ++ l :: ls) (.drop l.id) = pre ++ ls := by
    simp only [Leaves.apply, List.filter_append, List.filter_cons, ne_eq, not_true, decide_false, hl, List.isEmpty_nil,
      Bool.not_true, Bool.or_self, Bool.false_eq_true, if_false]
    rw [← List.filter_append]
    exact List.filter_eq_self.2 (fun x hx => by simpa using Or.inl (hno x hx))
  have htail := Leaves.tail_none.2 hno
  simp only [iterate, List.foldl_cons, List.foldl_nil, tcbChange, hd, tcbNext, Leaves.next, htail]

example : iterate tcbNext tcbChange ([⟨1, [[97], [98], [99]]⟩, ⟨2, [[100]]⟩], .start) [[], [], [.out [97]], [], []] =
      ([[97], [98], [100]], true) ∧
    iterate tcbNext tcbChange ([⟨1, [[97]]⟩, ⟨2, [[100]]⟩], .start) [[], [.out [97]], []] = ([[97], [100]], true) ∧
    iterate tcbNext tcbChange ([⟨1, [[97]]⟩, ⟨2, [[100]]⟩], .start) [[], [.out [97], .drop 1]] = ([[97]], true) := by
  decide +kernel

/-- C99.  Exactly what a dump sends with a B+ tree and nobody else at work: reading an expired record removes it, and the record behind it in
its leaf is passed over. -/
theorem C99_tcb_dump {b : Bytes → Option Bool} {s : Store} (hs : s.Ok) (hl : s.iterLock = false) (env : Env) {t : Leaves}
    (ht : t.Ok) (hk : ∀ k, k ∈ t.keys ↔ dbGet s.db k ≠ none) (hnul : ∀ k ∈ t.keys, (0 : UInt8) ∉ k)
    (hb : ∀ k ∈ t.keys, b k ≠ none) {n : Nat} (hn : t.keys.length < n) {ks : List Bytes} {t' : Leaves} {p : TreePos}
    (hw : walk tcbNext (fun k => tcbChange (.out k)) (readGone b s env) n (t, .start) = (ks, true, (t', p))) :
    (dumpServer b s true (quietRounds env ks)).ended = some .fin ∧
    ((dumpServer b s true (quietRounds env ks)).sent.map (·.key)).Nodup ∧
    (∀ e, e ∈ (dumpServer b s true (quietRounds env ks)).sent ↔
      b e.key = some true ∧ (∃ l ∈ t, e.key ∈ passing (readGone b s env) l.keys) ∧
        ∃ it, lookup s env.now e.key = some it ∧ e = it.entry e.key) ∧
    ∀ k, k ∈ t'.keys ↔ dbGet (dumpServer b s true (quietRounds env ks)).store.db k ≠ none := by
  have h := (tcb_walk_start (readGone b s env) n ht hn).1
  have hkeys := walk_keys (next := tcbNext) (out := fun k => tcbChange (.out k)) (fun s => s.1.keys) (by
      intro s k s' h
      simp only [tcbNext] at h
      split at h
      · exact nomatch h
      · simp only [Option.some.injEq, Prod.mk.injEq] at h
        rw [← h.2]) (by
      intro k s x
      simp only [tcbChange, Leaves.apply, Leaves.out_keys, List.mem_filter, decide_eq_true_eq]) (readGone b s env) n (t, .start)
  simp only [hw] at h hkeys
  subst h
  have hsub : (t.flatMap fun l => passing (readGone b s env) l.keys).Sublist t.keys := tcb_passing_sublist _ t
  obtain ⟨d1, d2, d3, d4, -⟩ := quiet_dump (b := b) hs hl env (ht.2.sublist hsub) (fun k h => hnul k (hsub.subset h))
    (fun k h => hb k (hsub.subset h))
  refine ⟨d1, d2, fun e => (d3 e).trans (by rw [List.mem_flatMap]), fun k => by rw [hkeys k, d4 k, hk k]⟩

/-- The record behind the first expired one of a leaf is passed over. -/
theorem tcb_passed_over {gone : Bytes → Bool} {t : Leaves} (ht : t.Ok) {l : Leaf} (hlt : l ∈ t) {xs ys : List Bytes} {x y : Bytes}
    (hlk : l.keys = xs ++ x :: y :: ys) (hxs : ∀ k ∈ xs, gone k = false) (hx : gone x = true) :
    y ∉ t.flatMap fun l => passing gone l.keys := by
  obtain ⟨pre, ls, rfl⟩ := List.append_of_mem hlt
  have hnd := ht.2
  rw [Leaves.keys_append, Leaves.keys_cons, List.nodup_append, List.nodup_append] at hnd
  obtain ⟨-, ⟨hn1, -, hn3⟩, hn4⟩ := hnd
  have hy : y ∈ l.keys := by rw [hlk]; simp
  rw [List.flatMap_append, List.flatMap_cons]
  intro h
  rcases List.mem_append.1 h with h | h
  · exact hn4 y ((tcb_passing_sublist _ pre).subset h) y (List.mem_append_left _ hy) rfl
  · rcases List.mem_append.1 h with h | h
    · rw [hlk, passing_lost _ hxs hx] at h
      rw [hlk] at hn1
      have hs2 := passing_sublist gone ys
      simp only [List.nodup_append, List.nodup_cons, List.mem_cons, not_or] at hn1
      simp only [List.mem_append, List.mem_cons] at h
      rcases h with h | h | h
      · exact hn1.2.2 y h y (Or.inr (Or.inl rfl)) rfl
      · exact hn1.2.1.1.1 h.symm
      · exact hn1.2.1.2.1 (hs2.subset h)
    · exact hn3 y hy y ((tcb_passing_sublist _ ls).subset h) rfl

/-- C99 fails: the record behind the first expired one of the partition in a leaf is not sent, though it stays in the storage and the dump ends
with END. -/
theorem C99_tcb_dump_lost {b : Bytes → Option Bool} {s : Store} (hs : s.Ok) (hl : s.iterLock = false) (env : Env) {t : Leaves}
    (ht : t.Ok) (hk : ∀ k, k ∈ t.keys ↔ dbGet s.db k ≠ none) (hnul : ∀ k ∈ t.keys, (0 : UInt8) ∉ k)
    (hb : ∀ k ∈ t.keys, b k ≠ none) {n : Nat} (hn : t.keys.length < n) {ks : List Bytes} {t' : Leaves} {p : TreePos}
    (hw : walk tcbNext (fun k => tcbChange (.out k)) (readGone b s env) n (t, .start) = (ks, true, (t', p)))
    {l : Leaf} (hlt : l ∈ t) {xs ys : List Bytes} {x y : Bytes} (hlk : l.keys = xs ++ x :: y :: ys)
    (hxs : ∀ k ∈ xs, readGone b s env k = false) (hx : readGone b s env x = true) :
    (dumpServer b s true (quietRounds env ks)).ended = some .fin ∧
    y ∉ (dumpServer b s true (quietRounds env ks)).sent.map (·.key) ∧
    dbGet (dumpServer b s true (quietRounds env ks)).store.db y = dbGet s.db y := by
  have hks : ks = t.flatMap fun l => passing (readGone b s env) l.keys := by
    have := (tcb_walk_start (readGone b s env) n ht hn).1
    rw [hw] at this
    exact this
  have hsub : ks.Sublist t.keys := hks ▸ tcb_passing_sublist _ t
  obtain ⟨d1, -, d3, -, d5⟩ := quiet_dump (b := b) hs hl env (ht.2.sublist hsub) (fun k h => hnul k (hsub.subset h))
    (fun k h => hb k (hsub.subset h))
  have hny : y ∉ ks := hks ▸ tcb_passed_over ht hlt hlk hxs hx
  refine ⟨d1, ?_, d5 y hny⟩
  intro h
  obtain ⟨e, he, rfl⟩ := List.mem_map.1 h
  exact hny ((d3 e).1 he).2.1

/-- C99.  Every iteration with nobody else at work reaches its end, with at most one call more than there are records: the dumps above all
take place. -/
theorem C99_ends (gone : Bytes → Bool) {f : Records} (hf : f.Ok) {t : Leaves} (ht : t.Ok) {n : Nat} (hn : f.length < n)
    {m : Nat} (hm : t.keys.length < m) :
    (walk tchNext (fun k => tchChange (.out k)) gone n (f, 0)).2.1 = true ∧
    (walk kchNext (fun k => kchChange (.out k)) gone n (f, none)).2.1 = true ∧
    (walk tcbNext (fun k => tcbChange (.out k)) gone m (t, .start)).2.1 = true :=
  ⟨(tch_walk gone n (pre := []) (rest := f) hf (c := 0) (fun r hr => nomatch hr) (fun r _ => Nat.zero_le _) hn).2,
    (kch_walk_start gone n hf hn).2, (tcb_walk_start gone m ht hm).2⟩

/-- C99, in part.  If no record of the partition has expired, the iterations of all three engines return every key, so that
their dumps send every visible record of the partition. -/
theorem C99_no_expired_partial {b : Bytes → Option Bool} {s : Store} (env : Env)
    (hg : ∀ k, readGone b s env k = false) {f : Records} (hf : f.Ok) {t : Leaves} (ht : t.Ok) {n : Nat} (hn : f.length < n)
    {m : Nat} (hm : t.keys.length < m) :
    (walk tchNext (fun k => tchChange (.out k)) (readGone b s env) n (f, 0)).1 = f.map (·.2) ∧
    (walk kchNext (fun k => kchChange (.out k)) (readGone b s env) n (f, none)).1 = f.map (·.2) ∧
    (walk tcbNext (fun k => tcbChange (.out k)) (readGone b s env) m (t, .start)).1 = t.keys := by
  refine ⟨(tch_walk (readGone b s env) n (pre := []) (rest := f) hf (c := 0) (fun r hr => nomatch hr)
    (fun r _ => Nat.zero_le _) hn).1, ?_, ?_⟩
  · rw [(kch_walk_start (readGone b s env) n hf hn).1, passing_all _ _ (fun k _ => hg k)]
  · rw [(tcb_walk_start (readGone b s env) m ht hm).1]
    simp only [Leaves.keys]
    congr 1
    funext l
    exact passing_all _ _ (fun k _ => hg k)

/-- The tree of the example: the records of `dumpEx`, of which "b" expires at 500. -/
def treeEx : Leaves := [⟨1, [[97], [98], [99]]⟩]

/-- C99 fails, from end to end: a master with the B+ tree engine holds "a", "b" (which has expired) and "c"; a slave is built from its dump,
which ends with END.  The slave then lacks "c", which the master has. -/
theorem C99_slave_lacks :
    (∀ k, k ∈ treeEx.keys ↔ dbGet dumpEx.db k ≠ none) ∧
    walk tcbNext (fun k => tcbChange (.out k)) (readGone (fun _ => some true) dumpEx { now := 600 }) 4 (treeEx, .start) =
      ([[97], [98]], true, ([⟨1, [[97], [99]]⟩], .at 1 1)) ∧
    (dumpServer (fun _ => some true) dumpEx true (quietRounds { now := 600 } [[97], [98]])).ended = some .fin ∧
    (lookup (dumpServer (fun _ => some true) dumpEx true (quietRounds { now := 600 } [[97], [98]])).store 600 [99]).isSome = true ∧
    lookup (storeDump (Store.empty 10)
      ((dumpServer (fun _ => some true) dumpEx true (quietRounds { now := 600 } [[97], [98]])).sent.map
        fun e => (({ now := 600 } : Env), e))) 600 [99] = none := by
  refine ⟨?_, by decide +kernel⟩
  intro k
  have hdb : dumpEx.db.map (·.1) = [[99], [98], [97]] := by decide +kernel
  have : ∀ (db : List (Bytes × Bytes)), k ∈ db.map (·.1) ↔ dbGet db k ≠ none := by
    intro db
    induction db with
    | nil => simp [dbGet]
    | cons p db ih =>
      obtain ⟨k', v⟩ := p
      simp only [List.map_cons, List.mem_cons, dbGet]
      split
      · rename_i h; simp [h]
      · rename_i h
        rw [ih]
        exact ⟨fun g => g.elim (fun e => absurd e.symm h) id, Or.inr⟩
  have hk : treeEx.keys = [[97], [98], [99]] := rfl
  rw [← this, hdb, hk]
  simp only [List.mem_cons, List.not_mem_nil, or_false]
  exact ⟨fun h => h.elim (fun h => Or.inr (Or.inr h)) (fun h => h.elim (fun h => Or.inr (Or.inl h)) Or.inl),
    fun h => h.elim (fun h => Or.inr (Or.inr h)) (fun h => h.elim (fun h => Or.inr (Or.inl h)) Or.inl)⟩

end Flare
