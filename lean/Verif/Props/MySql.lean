import Verif.Lemmas.MySql
import Verif.Props.Replication

namespace Flare

/-! ### What the copies say -/

/-- What the copy `c` of a write on `k` says about the master's store before and after. -/
def SqlSays (m m' : Store) (k : Bytes) (del : Bool) (e : Entry) : Prop :=
  e.key = k ∧ (∀ k', k' ≠ k → dbGet m'.db k' = dbGet m.db k') ∧
    (del = true → ∀ t, lookup m' t k = none) ∧
    (del = false → e.Ok ∧ ∀ t, lookup m' t k =
      if 0 < e.expire ∧ e.expire ≤ t then none else some ⟨e.data, e.flag, e.expire, e.version⟩)

theorem sqlSays_set {m : Store} (hm : m.Ok) {env : Env} {r : WriteReq} (he : r.entry.Ok) {b : Beh}
    (hb : b.skipTimestamp = false) (hcall : r.call = .set r.entry b)
    (hr : (step m env r.call).2.r = some .stored ∨ (step m env r.call).2.r = some .touched) :
    SqlSays m (step m env r.call).1 r.entry.key false (step m env r.call).2.e := by
  have hoth : ∀ k, k ≠ r.entry.key → dbGet (step m env r.call).1.db k = dbGet m.db k := fun k hk =>
    step_db_ne (call_not_flush r) (by rw [call_key]; intro h; exact hk (Option.some.inj h).symm)
  rw [hcall] at hr hoth ⊢
  obtain ⟨f1, -, f3, -, f5, -⟩ := set_done hm he hb hr
  exact ⟨f1, hoth, (fun h => nomatch h), fun _ => ⟨f3, f5⟩⟩

theorem sqlSays_incr {m : Store} (hm : m.Ok) {env : Env} {r : WriteReq} {i : Bool}
    (hcall : r.call = .incr r.entry r.value i {}) (hr : (step m env r.call).2.r = some .stored) :
    SqlSays m (step m env r.call).1 r.entry.key false (step m env r.call).2.e := by
  have hoth : ∀ k, k ≠ r.entry.key → dbGet (step m env r.call).1.db k = dbGet m.db k := fun k hk =>
    step_db_ne (call_not_flush r) (by rw [call_key]; intro h; exact hk (Option.some.inj h).symm)
  rw [hcall] at hr hoth ⊢
  obtain ⟨f1, -, f3, -, f5⟩ := incr_done hm hr
  exact ⟨f1, hoth, (fun h => nomatch h), fun _ => ⟨f3, f5⟩⟩

theorem sqlSays_remove {m : Store} (hm : m.Ok) {env : Env} {r : WriteReq}
    (hcall : r.call = .remove r.entry {}) (hr : (step m env r.call).2.r = some .deleted) :
    SqlSays m (step m env r.call).1 r.entry.key true (step m env r.call).2.e := by
  have hoth : ∀ k, k ≠ r.entry.key → dbGet (step m env r.call).1.db k = dbGet m.db k := fun k hk =>
    step_db_ne (call_not_flush r) (by rw [call_key]; intro h; exact hk (Option.some.inj h).symm)
  rw [hcall] at hr hoth ⊢
  obtain ⟨f1, -⟩ := remove_done hm hr
  exact ⟨f1, hoth, fun _ t => C08_absent_afterwards hr t, (fun h => nomatch h)⟩

/-- The copy of a write and what is read at the master afterwards. -/
theorem sqlCopy_says {m : Store} (hm : m.Ok) {env : Env} {r : WriteReq} (he : r.entry.Ok) {c : SqlCopy}
    (h : sqlCopyOf r (step m env r.call).2 = some c) :
    SqlSays m (step m env r.call).1 r.entry.key c.delete c.entry := by
  simp only [sqlCopyOf] at h
  split at h
  case isFalse => cases h
  case isTrue hcop =>
  simp only [Option.some.injEq] at h
  subst h
  cases hc : r.cmd <;> simp only [hc, WriteCmd.copies, Bool.or_eq_true, beq_iff_eq] at hcop ⊢
  case delete => exact sqlSays_remove hm (by simp only [WriteReq.call, hc]) hcop
  case incr => exact sqlSays_incr hm (i := true) (by simp only [WriteReq.call, hc]) hcop
  case decr => exact sqlSays_incr hm (i := false) (by simp only [WriteReq.call, hc]) hcop
  case set => exact sqlSays_set hm he (b := .ofSet) rfl (by simp only [WriteReq.call, hc]) hcop
  case add => exact sqlSays_set hm he (b := .ofAdd) rfl (by simp only [WriteReq.call, hc]) hcop
  case replace => exact sqlSays_set hm he (b := .ofReplace) rfl (by simp only [WriteReq.call, hc]) hcop
  case cas => exact sqlSays_set hm he (b := .ofCas) rfl (by simp only [WriteReq.call, hc]) hcop
  case append => exact sqlSays_set hm he (b := .ofAppend) rfl (by simp only [WriteReq.call, hc]) hcop
  case prepend => exact sqlSays_set hm he (b := .ofPrepend) rfl (by simp only [WriteReq.call, hc]) hcop
  case touch => exact sqlSays_set hm he (b := .ofTouch) rfl (by simp only [WriteReq.call, hc]) hcop
  case gat => exact sqlSays_set hm he (b := .ofTouch) rfl (by simp only [WriteReq.call, hc]) hcop

/-! ### The table follows the store -/

/-- An item whose expiry is 0 if it never expires. -/
def Item.plain (it : Item) : Item := if 0 < it.expire then it else { it with expire := 0 }

/-- The table says what is read at the master, from `t0` on. -/
def SqlAgrees (date : Bytes → Option Int64) (tab : SqlTable) (m : Store) (t0 : Int64) : Prop :=
  ∀ t, t0 ≤ t → ∀ k, tab.lookup date t k = (lookup m t k).map Item.plain

/-- The events of a master in the order of its clock, from clients: whole entries, keys that are the same inside
quotes, and no `flush_all`. -/
def SqlTimely : Int64 → List Event → Prop
  | _, [] => True
  | t, .write env _ r _ :: evs => t ≤ env.now ∧ r.entry.Ok ∧ SafeKey r.entry.key ∧ SqlTimely env.now evs
  | t, .readMaster env _ :: evs => t ≤ env.now ∧ SqlTimely env.now evs
  | t, .readSlave _ _ :: evs => SqlTimely t evs
  | _, .flushMaster _ :: _ => False

/-- The time of the last event at the master. -/
def sqlEndTime : Int64 → List Event → Int64
  | t, [] => t
  | _, .write env _ _ _ :: evs => sqlEndTime env.now evs
  | _, .readMaster env _ :: evs => sqlEndTime env.now evs
  | t, .readSlave _ _ :: evs => sqlEndTime t evs
  | t, .flushMaster _ :: evs => sqlEndTime t evs

theorem SqlTable.lookup_put {cf : SqlConf} {date : Bytes → Option Int64}
    (hd : ∀ x, 0 < x → date (cf.clock x) = some x) (tab : SqlTable) {e : Entry} (he : e.Ok) (t : Int64) (k : Bytes) :
    (tab.put e.key (sqlRowOf cf e)).lookup date t k =
      if k = e.key then
        (if 0 < e.expire ∧ e.expire ≤ t then none
          else some ⟨e.data, e.flag, e.expire, e.version⟩ : Option Item).map Item.plain
      else tab.lookup date t k := by
  simp only [SqlTable.lookup, SqlTable.get_put]
  by_cases h : k = e.key
  · simp only [if_pos h, sqlRowOf, sqlExpire]
    rw [List.take_of_length_le (Nat.le_of_eq he.1)]
    by_cases hx : 0 < e.expire
    · simp only [gt_iff_lt, if_pos hx, hd _ hx]
      by_cases ht : 0 < e.expire ∧ e.expire ≤ t
      · simp only [if_pos ht, Option.map_none]
      · simp only [if_neg ht, Option.map_some, Item.plain, if_pos hx, UInt32.ofNat_toNat, UInt64.ofNat_toNat]
    · have ht : ¬ (0 < e.expire ∧ e.expire ≤ t) := fun h => hx h.1
      simp only [gt_iff_lt, if_neg hx, if_neg ht, Option.map_some, Item.plain]
      rw [show Int64.ofNat 0 = 0 from rfl, if_neg (by simp)]
      simp
  · simp only [if_neg h]

theorem SqlTable.lookup_del {date : Bytes → Option Int64} (tab : SqlTable) (x : Bytes) (t : Int64) (k : Bytes) :
    SqlTable.lookup date (tab.filter fun y => !([SqlCond.key x].any (SqlCond.holds y.1))) t k =
      if k = x then none else tab.lookup date t k := by
  simp only [SqlTable.lookup, SqlTable.get_del]
  by_cases h : k = x <;> simp [h]

/-- One copy keeps the table in agreement. -/
theorem sqlAgrees_step {cf : SqlConf} (hcf : cf.Sane) {date : Bytes → Option Int64}
    (hd : ∀ x, 0 < x → date (cf.clock x) = some x) {tab : SqlTable} {m m' : Store} {t0 : Int64} {k : Bytes}
    (hk : SafeKey k) {del : Bool} {e : Entry} (h : SqlSays m m' k del e) (ha : SqlAgrees date tab m t0) :
    ∃ tab', sqlApply cf.table tab (sqlText cf del e) = some tab' ∧ SqlAgrees date tab' m' t0 := by
  obtain ⟨h1, h2, h3, h4⟩ := h
  cases del
  · obtain ⟨h5, h6⟩ := h4 rfl
    refine ⟨_, sqlApply_replace hcf (by rw [h1]; exact hk) tab, fun t ht k' => ?_⟩
    rw [SqlTable.lookup_put hd tab h5, h1]
    by_cases hkk : k' = k
    · rw [if_pos hkk, hkk, h6]
    · rw [if_neg hkk, lookup_congr_db k' (h2 k' hkk) t, ha t ht]
  · refine ⟨_, sqlApply_delete hcf (by rw [h1]; exact hk) tab, fun t ht k' => ?_⟩
    rw [SqlTable.lookup_del, h1]
    by_cases hkk : k' = k
    · rw [if_pos hkk, hkk, h3 rfl]; rfl
    · rw [if_neg hkk, lookup_congr_db k' (h2 k' hkk) t, ha t ht]

theorem sqlAgrees_mono {date : Bytes → Option Int64} {tab : SqlTable} {m m' : Store} {t0 t1 : Int64} (h : t0 ≤ t1)
    (hl : ∀ t, t1 ≤ t → ∀ k, lookup m' t k = lookup m t k) (ha : SqlAgrees date tab m t0) :
    SqlAgrees date tab m' t1 := fun t ht k => by
  rw [hl t ht, ha t (Int64.le_trans h ht)]

theorem sql_mirror {cf : SqlConf} (hcf : cf.Sane) {date : Bytes → Option Int64}
    (hd : ∀ x, 0 < x → date (cf.clock x) = some x) (evs : List Event) :
    ∀ (m : Store) (tab : SqlTable) (t0 : Int64), m.Ok → SqlAgrees date tab m t0 → SqlTimely t0 evs →
      ∃ tab', sqlApplyAll cf.table tab ((sqlHistory m evs).2.map fun c => sqlText cf c.delete c.entry) = some tab' ∧
        SqlAgrees date tab' (sqlHistory m evs).1 (sqlEndTime t0 evs) := by
  induction evs with
  | nil => intro m tab t0 _ ha _; exact ⟨tab, rfl, ha⟩
  | cons ev evs ih =>
    intro m tab t0 hm ha ht
    cases ev with
    | write env pth r env' =>
      obtain ⟨ht1, ht2, ht3, ht4⟩ := ht
      have hm' := step_ok hm env r.call
      simp only [sqlHistory, sqlEndTime]
      cases hc : sqlCopyOf r (step m env r.call).2 with
      | none =>
        simp only [Option.toList_none, List.nil_append]
        refine ih _ tab _ hm' (sqlAgrees_mono ht1 (fun t ht k => ?_) ha) ht4
        refine (master_no_copy hm (path := []) (env := env) (r := r) ?_).1 t k ht
        simp only [sqlCopyOf] at hc
        simp only [atMaster, copyOf]
        by_cases hcop : r.cmd.copies (step m env r.call).2.r = true
        · rw [if_pos hcop] at hc; cases hc
        · rw [if_neg hcop]
      | some c =>
        obtain ⟨tab1, h1, h2⟩ := sqlAgrees_step hcf hd ht3 (sqlCopy_says hm ht2 hc) ha
        obtain ⟨tab2, h3, h4⟩ := ih _ tab1 _ hm' (sqlAgrees_mono ht1 (fun _ _ _ => rfl) h2) ht4
        refine ⟨tab2, ?_, h4⟩
        simp only [Option.toList_some, List.singleton_append, List.map_cons, sqlApplyAll, h1, h3]
    | readMaster env e =>
      obtain ⟨ht1, ht2⟩ := ht
      simp only [sqlHistory, sqlEndTime]
      exact ih _ tab _ (step_ok hm env (.get e {})) (sqlAgrees_mono ht1 (fun t ht k => get_lookup hm env e {} ht k) ha) ht2
    | readSlave env e => exact ih m tab t0 hm ha ht
    | flushMaster env => exact ht.elim

/-! ### The bytes -/

theorem cutPackets_length {m : Nat} (hm : 0 < m) (n : Nat) : ∀ (id : UInt32) (b : Bytes), b.length ≤ n →
    b.length ≤ (cutPackets m n id b).1.length := by
  induction n with
  | zero => intro id b h; simp only [cutPackets]; exact h
  | succ n ih =>
    intro id b h
    simp only [cutPackets]
    split
    · rename_i h0; rw [h0]; exact Nat.zero_le _
    · rename_i h0
      obtain ⟨k, hk⟩ : ∃ k, k = if b.length > m then m else b.length := ⟨_, rfl⟩
      have hk1 : 0 < k ∧ k ≤ b.length := by rw [hk]; split <;> omega
      rw [← hk]
      have := ih (id + 1) (b.drop k) (by rw [List.length_drop]; omega)
      simp only [List.length_append, List.length_take, List.length_drop] at this ⊢
      omega

theorem sqlSend_ok {cf : SqlConf} (hcf : cf.Sane) (now : Int64) (l : SqlLink) {c : SqlCopy}
    (h1 : c.entry.size.toNat ≤ c.entry.data.length)
    (h2 : 8192 + c.entry.key.length + 2 * c.entry.size.toNat ≤ intMax) :
    ∃ b next, queryEvent cf now l.offset (sqlText cf c.delete c.entry) = some (b, next) ∧
      sqlSend cf now l c.delete c.entry = some (sqlWrite { l with offset := next } b) ∧
      readEvent b = some { time := now.toUInt64.toNat % 4294967296, server := cf.id.toNat
                           length := 33 + cf.db.length + (sqlText cf c.delete c.entry).length
                           next := next.toNat, thread := cf.thread.toNat, db := cf.db
                           query := sqlText cf c.delete c.entry } ∧
      b.length = 34 + cf.db.length + (sqlText cf c.delete c.entry).length ∧
      next.toNat = (l.offset.toNat + (33 + cf.db.length + (sqlText cf c.delete c.entry).length)) % 4294967296 := by
  have hq := sqlQuery_ok hcf c.delete h1 h2
  have hlen := sqlText_length hcf c.delete c.entry h1
  have hi : intMax = 2147483647 := rfl
  have hdb := hcf.2.2.2.1
  obtain ⟨b, next, hev⟩ : ∃ b next, queryEvent cf now l.offset (sqlText cf c.delete c.entry) = some (b, next) := by
    have hc := cstr_safe hcf.2.2.1
    simp only [queryEvent, hc]
    rw [if_neg (by omega)]
    exact ⟨_, _, rfl⟩
  obtain ⟨e1, e2, e3⟩ := readEvent_query hcf.2.2.1 hdb now l.offset (sqlText cf c.delete c.entry) (by omega) hev
  refine ⟨b, next, hev, ?_, e1, e2, ?_⟩
  · simp only [sqlSend, hq, hev]
  · rw [e3, UInt32.toNat_add, UInt32.toNat_ofNat']
    omega

/-- **What is sent is what is read.**  A MySQL slave reads the copies it is sent, in order, each as one event of the
configured server and database with the statement for the copy, and the positions add up.  For values of any bytes and
any keys; `SqlCopy.Fits` excludes the events that end with a full packet (`C74_full_packet`). -/
theorem C74_stream {cf : SqlConf} (hcf : cf.Sane) (sends : List (Int64 × SqlCopy)) :
    ∀ (l : SqlLink), (∀ x ∈ sends, x.2.Fits cf) →
      ∃ bs l' es, sqlSendAll cf l sends = some (bs, l') ∧ readLog sends.length l.packet bs = some es ∧
        es.map (·.query) = sends.map (fun x => sqlText cf x.2.delete x.2.entry) ∧
        (∀ e ∈ es, e.server = cf.id.toNat ∧ e.db = cf.db) ∧ LogPlaced l.offset.toNat es := by
  induction sends with
  | nil => intro l _; exact ⟨[], l, [], rfl, rfl, rfl, by simp, trivial⟩
  | cons x sends ih =>
    intro l hx
    obtain ⟨now, c⟩ := x
    have hc : c.Fits cf := hx (now, c) List.mem_cons_self
    obtain ⟨b, next, -, h2, h3, h4, h5⟩ := sqlSend_ok hcf now l hc.1 hc.2.1
    obtain ⟨bs, l', es, i1, i2, i3, i4, i5⟩ := ih (sqlWrite { l with offset := next } b).2
      fun y hy => hx y (List.mem_cons_of_mem _ hy)
    obtain ⟨e0, he0⟩ : ∃ e0 : LogQuery, e0 = ⟨now.toUInt64.toNat % 4294967296, cf.id.toNat,
      33 + cf.db.length + (sqlText cf c.delete c.entry).length, next.toNat, cf.thread.toNat, cf.db,
      sqlText cf c.delete c.entry⟩ := ⟨_, rfl⟩
    rw [← he0] at h3
    refine ⟨(sqlWrite { l with offset := next } b).1 ++ bs, l', e0 :: es, ?_, ?_, ?_, ?_, ?_⟩
    · simp only [sqlSendAll, h2, i1]
    · simp only [sqlWrite] at i2 ⊢
      obtain ⟨p, q, hcut⟩ : ∃ p q, cutPackets maxPacket b.length l.packet b = (p, q) := ⟨_, _, rfl⟩
      have hm : ∀ n, b.length ≤ n → readMessage maxPacket n l.packet (p ++ bs) = some (b, q, bs) := fun n hn => by
        have := readMessage_cut (m := maxPacket) (by decide) (by decide) b.length b l.packet n bs (Nat.le_refl _) hn
          (by rw [h4]; exact hc.2.2)
        rw [hcut] at this
        exact this
      rw [hcut] at i2 ⊢
      simp only at i2 ⊢
      have hle : b.length ≤ (p ++ bs).length := by
        have := cutPackets_length (m := maxPacket) (by decide) b.length l.packet b (Nat.le_refl _)
        rw [hcut] at this
        rw [List.length_append]
        exact Nat.le_trans this (Nat.le_add_right _ _)
      obtain ⟨w, s, hw⟩ : ∃ w s, p ++ bs = w :: s := by
        cases hpb : p ++ bs with
        | nil => rw [hpb, List.length_nil] at hle; omega
        | cons w s => exact ⟨w, s, rfl⟩
      have hm' := hm ((p ++ bs).length + 1) (by omega)
      rw [hw] at hm' ⊢
      simp only [List.length_cons, readLog] at hm' ⊢
      rw [hm']
      simp only [h3, i2]
    · simp only [List.map_cons, i3, he0]
    · rw [he0]
      intro e he
      rcases List.mem_cons.1 he with rfl | he
      · exact ⟨rfl, rfl⟩
      · exact i4 e he
    · rw [he0]
      exact ⟨h5, i5⟩

/-- **A copy changes its own row and nothing else.**  For every value, whatever bytes are in it, and every key without
quote, backslash or NUL: the slave's table then says for the key what the entry says, and for the others what it said
before. -/
theorem C74_row {cf : SqlConf} (hcf : cf.Sane) {date : Bytes → Option Int64}
    (hd : ∀ x, 0 < x → date (cf.clock x) = some x) (tab : SqlTable) {e : Entry} (he : e.Ok) (hk : SafeKey e.key) :
    (∃ tab', sqlApply cf.table tab (sqlText cf false e) = some tab' ∧ ∀ t k, tab'.lookup date t k =
      if k = e.key then
        if 0 < e.expire then
          if e.expire ≤ t then none else some ⟨e.data, e.flag, e.expire, e.version⟩
        else some ⟨e.data, e.flag, 0, e.version⟩
      else tab.lookup date t k) ∧
    ∃ tab', sqlApply cf.table tab (sqlText cf true e) = some tab' ∧ ∀ t k, tab'.lookup date t k =
      if k = e.key then none else tab.lookup date t k := by
  refine ⟨⟨_, sqlApply_replace hcf hk tab, fun t k => ?_⟩, _, sqlApply_delete hcf hk tab, fun t k =>
    SqlTable.lookup_del tab e.key t k⟩
  rw [SqlTable.lookup_put hd tab he]
  by_cases hkk : k = e.key
  · simp only [if_pos hkk]
    by_cases hx : 0 < e.expire
    · by_cases ht : e.expire ≤ t
      · rw [if_pos ⟨hx, ht⟩, if_pos hx, if_pos ht]; rfl
      · rw [if_neg (fun h => ht h.2), if_pos hx, if_neg ht]
        simp only [Option.map_some, Item.plain, if_pos hx]
    · rw [if_neg (fun h => hx h.1), if_neg hx]
      simp only [Option.map_some, Item.plain, if_neg hx]
  · simp only [if_neg hkk]

/-- **The table is what is read at the master.**  A slave whose table agrees with the master's store is sent the copies
of any writes and reads of clients, at any times in order; it reads them from the bytes, its statements all succeed,
and afterwards its table again says for every key, at every later time, what is read at the master: value, flag,
version and expiry.

What is missing for the full property: keys with a quote, a backslash or NUL (`C74_injection`, `C74_delete_all`,
`C74_quote_stops`, `C74_backslash`), events that end with a full packet (`C74_full_packet`), `flush_all`
(`C74_flush_stays`), copies in another order (`C74_overtaken`) or lost on the way (`C74_off`, `C74_sent`), and dates
that cannot be read back, as when clocks are put back an hour. -/
theorem C74_mirror_partial {cf : SqlConf} (hcf : cf.Sane) {date : Bytes → Option Int64}
    (hd : ∀ x, 0 < x → date (cf.clock x) = some x) {m : Store} (hm : m.Ok) {tab : SqlTable} {t0 : Int64}
    (ha : SqlAgrees date tab m t0) {evs : List Event} (ht : SqlTimely t0 evs) (l : SqlLink)
    {sends : List (Int64 × SqlCopy)} (hs : sends.map (·.2) = (sqlHistory m evs).2)
    (hf : ∀ x ∈ sends, x.2.Fits cf) :
    ∃ bs l' es tab', sqlSendAll cf l sends = some (bs, l') ∧ readLog sends.length l.packet bs = some es ∧
      sqlApplyAll cf.table tab (es.map (·.query)) = some tab' ∧
      SqlAgrees date tab' (sqlHistory m evs).1 (sqlEndTime t0 evs) := by
  obtain ⟨bs, l', es, h1, h2, h3, -⟩ := C74_stream hcf sends l hf
  obtain ⟨tab', h4, h5⟩ := sql_mirror hcf hd evs m tab t0 hm ha ht
  refine ⟨bs, l', es, tab', h1, h2, ?_, h5⟩
  rw [h3, ← h4, ← hs, List.map_map]
  rfl

/-! ### Full packets -/

theorem readEvent_more {b x : Bytes} {e : LogQuery} (h : readEvent b = some e) (hx : x ≠ []) :
    readEvent (b ++ x) = none := by
  simp only [readEvent] at h ⊢
  split at h
  · cases h
  · rename_i hb
    simp only [not_or, Nat.not_lt, Decidable.not_not] at hb
    obtain ⟨h1, -, -, h2, -⟩ := hb
    have hpos : 0 < x.length := List.length_pos_iff.2 hx
    rw [if_pos]
    refine Or.inr (Or.inr (Or.inr (Or.inl ?_)))
    rw [List.drop_append_of_le_length (by omega), List.take_append_of_le_length (by rw [List.length_drop]; omega), h2,
      List.length_append]
    omega

theorem readMessage_ne {m n k : Nat} (h24 : m < 16777216) (hm : 0 < m) {id : UInt32} {b s : Bytes} (hb : b ≠ []) {x : Bytes × UInt32 × Bytes}
    (hk : b.length ≤ k) (h : readMessage m n id ((cutPackets m k id b).1 ++ s) = some x) : x.1 ≠ [] := by
  have hpos : 0 < b.length := List.length_pos_iff.2 hb
  obtain ⟨k, rfl⟩ : ∃ j, k = j + 1 := ⟨k - 1, by omega⟩
  cases n with
  | zero => simp only [readMessage] at h; cases h
  | succ n =>
    simp only [cutPackets] at h
    rw [if_neg (by omega)] at h
    obtain ⟨q, hq⟩ : ∃ q, q = if b.length > m then m else b.length := ⟨_, rfl⟩
    have hq1 : 0 < q ∧ q ≤ b.length ∧ q ≤ m := by rw [hq]; split <;> omega
    rw [← hq] at h
    simp only [List.append_assoc] at h
    rw [← List.append_assoc, ← List.append_assoc,
      readMessage_cons (by omega) (List.length_take_of_le hq1.2.1) rfl] at h
    have hne : b.take q ≠ [] := by
      rw [← List.length_pos_iff, List.length_take_of_le hq1.2.1]; exact hq1.1
    split at h
    · obtain ⟨y, -, rfl⟩ := Option.map_eq_some_iff.1 h
      simp [hne]
    · obtain rfl := Option.some.inj h
      exact hne

/-- **An event that ends with a full packet is not read.**  A message whose length is a multiple of 2^24 - 1 must be
followed by an empty packet; `_write` (/repo/src/lib/mysql_replication.cc:529-556) sends none.  The slave takes the
next event for the rest of this one, and neither is read. -/
theorem C74_full_packet {cf : SqlConf} (hcf : cf.Sane) {now : Int64} {l l' : SqlLink} {c : SqlCopy}
    (h1 : c.entry.size.toNat ≤ c.entry.data.length)
    (h2 : 8192 + c.entry.key.length + 2 * c.entry.size.toNat ≤ intMax) {j : Nat}
    (hj : 34 + cf.db.length + (sqlText cf c.delete c.entry).length = j * maxPacket)
    {sends : List (Int64 × SqlCopy)} {bs : Bytes} (h : sqlSendAll cf l ((now, c) :: sends) = some (bs, l')) (n : Nat) :
    readLog n l.packet bs = none := by
  obtain ⟨b, next, -, e2, e3, e4, -⟩ := sqlSend_ok hcf now l h1 h2
  obtain ⟨p, q, hcut⟩ : ∃ p q, cutPackets maxPacket b.length l.packet b = (p, q) := ⟨_, _, rfl⟩
  have hm0 : 0 < maxPacket := by decide
  have hm1 : maxPacket < 16777216 := by decide
  have hp : b.length ≤ p.length := by
    have := cutPackets_length hm0 b.length l.packet b (Nat.le_refl _)
    rwa [hcut] at this
  have hjb : j ≤ b.length := by rw [e4, hj]; exact Nat.le_mul_of_pos_right j hm0
  have hw : sqlWrite { l with offset := next } b = (p, { l with packet := q, offset := next }) := by
    simp only [sqlWrite, hcut]
  simp only [sqlSendAll, e2, hw] at h
  split at h
  case h_1 => cases h
  case h_2 more l2 hmore =>
  simp only [Option.some.injEq, Prod.mk.injEq] at h
  obtain ⟨rfl, -⟩ := h
  obtain ⟨w, s, hws⟩ : ∃ w s, p ++ more = w :: s := by
    cases hpb : p with
    | nil => rw [hpb, List.length_nil] at hp; omega
    | cons w s => exact ⟨w, s ++ more, rfl⟩
  have hread : ∀ x, readMessage maxPacket ((p ++ more).length + 1) l.packet (p ++ more) = some x →
      readEvent x.1 = none := by
    intro x hx
    have hfull := readMessage_full hm0 hm1 j b l.packet b.length ((p ++ more).length + 1 - j) more (Nat.le_refl _)
      (by rw [e4, hj])
    rw [hcut, show j + ((p ++ more).length + 1 - j) = (p ++ more).length + 1 by
      rw [List.length_append]; omega] at hfull
    rw [hfull] at hx
    obtain ⟨y, hy, rfl⟩ := Option.map_eq_some_iff.1 hx
    refine readEvent_more e3 ?_
    cases sends with
    | nil =>
      simp only [sqlSendAll, Option.some.injEq, Prod.mk.injEq] at hmore
      obtain ⟨rfl, -⟩ := hmore
      exfalso
      revert hy
      cases (p ++ []).length + 1 - j <;> simp [readMessage]
    | cons z sends =>
      obtain ⟨now', c'⟩ := z
      simp only [sqlSendAll, sqlSend] at hmore
      cases hq : sqlQuery cf c'.delete c'.entry with
      | none => rw [hq] at hmore; cases hmore
      | some q' =>
        simp only [hq] at hmore
        cases hv : queryEvent cf now' next q' with
        | none => rw [hv] at hmore; cases hmore
        | some v =>
          obtain ⟨b', next'⟩ := v
          simp only [hv] at hmore
          have hb' : b' ≠ [] := by
            simp only [queryEvent] at hv
            split at hv
            · cases hv
            · simp only [Option.some.injEq, Prod.mk.injEq] at hv
              rw [← hv.1]
              simp
          split at hmore
          case h_1 => cases hmore
          case h_2 rest l3 _ =>
          simp only [Option.some.injEq, Prod.mk.injEq, sqlWrite] at hmore
          obtain ⟨hmore, -⟩ := hmore
          rw [← hmore] at hy
          exact readMessage_ne hm1 hm0 hb' (Nat.le_refl _) hy
  cases n with
  | zero => rw [hws]; rfl
  | succ n =>
    rw [hws] at hread ⊢
    simp only [readLog]
    split
    · rfl
    · rename_i x hx
      rw [hread _ hx]

theorem sqlEscape_plain (n : Nat) : sqlEscape (List.replicate n 120) = List.replicate n 120 := by
  induction n with
  | zero => rfl
  | succ n ih =>
    rw [List.replicate_succ, sqlEscape, List.flatMap_cons, show sqlEscapeByte 120 = [120] from rfl,
      List.singleton_append]
    exact congrArg _ ih

/-- There is such an entry for every configuration and key: a value of nearly 16 MB. -/
theorem C74_full_packet_exists {cf : SqlConf} (hcf : cf.Sane) {k : Bytes} (hk : k.length ≤ 250) :
    ∃ e : Entry, e.key = k ∧ e.Ok ∧ 8192 + e.key.length + 2 * e.size.toNat ≤ intMax ∧
      34 + cf.db.length + (sqlText cf false e).length = 1 * maxPacket := by
  have hA := sqlText_length hcf false { key := k } (by simp)
  obtain ⟨A, hA'⟩ : ∃ A, A = (sqlText cf false { key := k }).length := ⟨_, rfl⟩
  rw [← hA'] at hA
  have hdb := hcf.2.2.2.1
  have hM : maxPacket = 16777215 := rfl
  have hI : intMax = 2147483647 := rfl
  have hH : headerSize = 28 := rfl
  have h0 : (0 : UInt64).toNat = 0 := rfl
  simp only [h0] at hA
  obtain ⟨n, hn⟩ : ∃ n, n = maxPacket - 34 - cf.db.length - A := ⟨_, rfl⟩
  have hsz : (UInt64.ofNat n).toNat = n := UInt64.toNat_ofNat_of_lt' (show n < 2 ^ 64 by omega)
  refine ⟨{ key := k, size := UInt64.ofNat n, data := List.replicate n 120 }, rfl, ?_, ?_, ?_⟩
  · simp only [Entry.Ok, hsz, List.length_replicate, true_and]
    omega
  · simp only [hsz]
    omega
  · have hl : (sqlText cf false { key := k, size := UInt64.ofNat n, data := List.replicate n 120 }).length = A + n := by
      rw [hA']
      simp only [sqlText, hsz, if_false, Bool.false_eq_true]
      rw [List.take_of_length_le (Nat.le_of_eq List.length_replicate), sqlEscape_plain]
      simp only [List.length_append, List.length_replicate, show sqlEscape (List.take (0 : UInt64).toNat []) = [] from rfl,
        List.length_nil]
      omega
    rw [hl]
    omega

/-! ### Keys -/

theorem sqlString_before {x s : Bytes} (hx : SafeKey x) (hs : s ≠ []) :
    sqlString (x ++ s) = (sqlString s).map fun y => (x ++ y.1, y.2) := by
  induction x with
  | nil => simp
  | cons c x ih =>
    have h := hx c List.mem_cons_self
    rw [List.cons_append, sqlString_plain h.2.2 h.2.1 (by simp [hs]), ih fun d hd => hx d (List.mem_cons_of_mem _ hd),
      Option.map_map]
    rfl

/-- A key with a second row in it. -/
def rowKey (x v y : Bytes) : Bytes := x ++ ascii "','" ++ v ++ ascii "',0,0,0),('" ++ y

theorem rowKey_cstr {x v y : Bytes} (hx : SafeKey x) (hv : SafeKey v) (hy : SafeKey y) : cstr (rowKey x v y) = rowKey x v y := by
  apply cstr_safe
  intro c hc
  simp only [rowKey, List.mem_append] at hc
  rcases hc with (((hc | hc) | hc) | hc) | hc
  · exact (hx c hc).1
  · revert hc; revert c; decide
  · exact (hv c hc).1
  · revert hc; revert c; decide
  · exact (hy c hc).1

/-- **A key writes any row.**  Values are escaped, keys are not (/repo/src/lib/mysql_replication.cc:180).  For any `x`,
`v` and `y` without quotes, a client's write on the key `x','v',0,0,0),('y` writes two rows at the slave: `v` under
`x`, and the client's value under `y`.  The key itself is never written. -/
theorem C74_injection {cf : SqlConf} (hcf : cf.Sane) {x v y : Bytes} (hx : SafeKey x) (hv : SafeKey v) (hy : SafeKey y)
    {e : Entry} (hk : e.key = rowKey x v y) (tab : SqlTable) :
    sqlApply cf.table tab (sqlText cf false e) =
      some ((tab.put x ⟨v, 0, 0, .num 0⟩).put y (sqlRowOf cf e)) := by
  have hs : sqlStmt (sqlText cf false e) = some (.replace cf.table [[.str x, .str v, .num 0, .num 0, .num 0],
      [.str y, .str (sqlRowOf cf e).value, .num (sqlRowOf cf e).flag, .num (sqlRowOf cf e).version,
        (sqlRowOf cf e).expire]]) := by
    rw [sqlText_replace, cstr_safe fun c h => (hcf.1 c h).1, sqlStmt_replace (fun c h => (hcf.1 c h).2), hk,
      rowKey_cstr hx hv hy]
    obtain ⟨T, hT⟩ : ∃ T, T = sqlTail cf e := ⟨_, rfl⟩
    have hshape : (39 : UInt8) :: (rowKey x v y ++ 39 :: 44 :: sqlTail cf e) =
        39 :: (x ++ 39 :: 44 :: 39 :: (v ++ 39 :: 44 :: (decimal 0 ++ 44 :: (decimal 0 ++ 44 :: (decimal 0 ++ 41 :: 44 :: 40 :: 39 ::
          (y ++ 39 :: 44 :: T)))))) := by
      simp only [rowKey, hT, show ascii "','" = [39, 44, 39] from by decide,
        show ascii "',0,0,0),('" = 39 :: 44 :: (decimal 0 ++ 44 :: (decimal 0 ++ 44 :: (decimal 0 ++ [41, 44, 40, 39]))) from by decide,
        List.append_assoc, List.cons_append, List.nil_append]
    have hdig : ∀ r : Bytes, ∀ c, ((44 : UInt8) :: r).head? = some c → isDigit c = false := by
      intro r c h; obtain rfl := Option.some.inj h; decide
    have hdig' : ∀ r : Bytes, ∀ c, ((41 : UInt8) :: r).head? = some c → isDigit c = false := by
      intro r c h; obtain rfl := Option.some.inj h; decide
    have h2 : ∀ n, 5 ≤ n → sqlValues n (39 :: (y ++ 39 :: 44 :: T)) = some ([.str y, .str (sqlRowOf cf e).value,
        .num (sqlRowOf cf e).flag, .num (sqlRowOf cf e).version, (sqlRowOf cf e).expire], []) := by
      intro n hn
      obtain ⟨n, rfl⟩ : ∃ j, n = j + 1 := ⟨n - 1, by omega⟩
      have := sqlTail_values hcf e n (by omega) []
      rw [List.append_nil, ← hT] at this
      rw [sqlValues_next (r := T) (v := .str y) (by rw [sqlValue_str, sqlString_safe hy (by simp)]; rfl), this]
      rfl
    have h1 : ∀ n, 5 ≤ n → sqlValues n (39 :: (rowKey x v y ++ 39 :: 44 :: sqlTail cf e)) =
        some ([.str x, .str v, .num 0, .num 0, .num 0], 44 :: 40 :: 39 :: (y ++ 39 :: 44 :: T)) := by
      intro n hn
      obtain ⟨n, rfl⟩ : ∃ j, n = j + 5 := ⟨n - 5, by omega⟩
      rw [hshape, sqlValues_next (v := .str x) (by rw [sqlValue_str, sqlString_safe hx (by simp)]; rfl),
        sqlValues_next (v := .str v) (by rw [sqlValue_str, sqlString_safe hv (by simp)]; rfl),
        sqlValues_next (sqlValue_num 0 (hdig _)), sqlValues_next (sqlValue_num 0 (hdig _)),
        sqlValues_last (sqlValue_num 0 (hdig' _))]
      rfl
    have hlen : 5 ≤ (39 :: (rowKey x v y ++ 39 :: 44 :: sqlTail cf e)).length := by
      have := sqlTail_length cf e
      simp only [List.length_cons, List.length_append]; omega
    rw [List.length_cons, sqlRows_more (h1 _ (by omega))]
    obtain ⟨N, hN⟩ : ∃ N, (39 :: (rowKey x v y ++ 39 :: 44 :: sqlTail cf e)).length = N + 1 := ⟨_, by rw [List.length_cons]⟩
    rw [hN, sqlRows_one (h2 _ ?_)]
    · rfl
    · have := sqlTail_length cf e
      simp only [hT, List.length_cons, List.length_append]; omega
  rw [sqlApply, hs]
  simp [sqlExec, SqlTable.putRows]

end Flare
