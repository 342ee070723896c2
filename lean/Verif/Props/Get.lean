import Verif.Model.Dump
import Verif.Lemmas.Get
import Verif.Props.Storage3

/-! Property theorems about reads: C64. -/
namespace Flare

/-! ### The keys -/

theorem getKeysLoop_ok (ks : List Bytes) (n : Nat) (q : Bytes) (hn : ks.length < n)
    (hq : 0 < q.length) (hk : ∀ k ∈ ks, PlainKey k q.length) :
    getKeysLoop n (ks.flatMap (fun k => chSpace :: k) ++ [chNl]) q = .ok ks := by
  induction ks generalizing n q with
  | nil =>
    cases n with
    | zero => simp at hn
    | succ n =>
      obtain ⟨q', h1, h2, -⟩ := scanWord_tok (w := []) (c := chNl) (rest := []) (q := q) 0 (by simp)
        (by decide) hq (fun _ => by decide)
      have h1' : scanWord [chNl] q = .ok ([chNl], q') := h1
      simp only [List.flatMap_nil, List.nil_append, getKeysLoop, h1', h2, if_true]
  | cons k ks ih =>
    cases n with
    | zero => simp at hn
    | succ n =>
      have hk0 := hk k List.mem_cons_self
      obtain ⟨c, r, hr, hc⟩ : ∃ c r, ks.flatMap (fun k => chSpace :: k) ++ [chNl] = c :: r ∧
          wordChar c = false := by
        cases ks with
        | nil => exact ⟨chNl, [], rfl, by decide⟩
        | cons k' ks => exact ⟨chSpace, _, rfl, by decide⟩
      obtain ⟨q', h1, h2, h3⟩ := scanWord_tok (w := k) (c := c) (rest := r) (q := q) 1 hk0.word hc
        hk0.2.2 (fun h => absurd h hk0.1)
      have h1' : scanWord ((k :: ks).flatMap (fun k => chSpace :: k) ++ [chNl]) q =
          .ok (c :: r, q') := by
        rw [← h1, ← hr]
        congr 1
        simp
      have hne : cstr q' ≠ [] := by rw [h2]; exact hk0.1
      have := ih n q' (by simpa using hn) (by omega) (fun x hx => by
        rw [h3]; exact hk x (List.mem_cons_of_mem _ hx))
      rw [hr] at this
      simp only [getKeysLoop, h1', if_neg hne, this]
      rw [h2]

/-- A request without a key is an error. -/
theorem C64_no_key (n : Nat) (q : Bytes) (hq : 0 < q.length) :
    getKeys (List.replicate n chSpace ++ [chNl]) q = .error .err := by
  obtain ⟨q', h1, h2, -⟩ := scanWord_nl q hq
  have h : scanWord (List.replicate n chSpace ++ [chNl]) q = .ok ([chNl], q') := by
    induction n with
    | zero => exact h1
    | succ n ih => rw [List.replicate_succ, List.cons_append, scanWord_blank, ih]
  simp only [getKeys, getKeysLoop, h, h2, if_true]

/-- The keys of a request are the words of its line, in order. -/
theorem C64_keys (ks : List Bytes) (hne : ks ≠ []) (q : Bytes) (hq : q.length = 8192)
    (hk : ∀ k ∈ ks, PlainKey k 8192) :
    getKeys (ks.flatMap (fun k => chSpace :: k) ++ [chNl]) q = .ok ks := by
  have hlen : ks.length < (ks.flatMap (fun k => chSpace :: k) ++ [chNl]).length + 1 := by
    have : ks.length ≤ (ks.flatMap (fun k => chSpace :: k)).length := by
      clear hne hk
      induction ks with
      | nil => simp
      | cons k ks ih => simp only [List.flatMap_cons, List.length_append, List.length_cons]; omega
    rw [List.length_append]
    omega
  rw [getKeys, getKeysLoop_ok ks _ q hlen (by omega) (by rw [hq]; exact hk)]
  cases ks with
  | nil => exact absurd rfl hne
  | cons k ks => rfl

example : getKeys " a  bc d\n".toUTF8.data.toList (List.replicate 8192 0) =
    .ok [[97], [98, 99], [100]] := by decide +kernel

/-! ### The answer -/

/-- The entry that is answered for one key of the request `rs`. -/
def answered (rs : List (Bytes × ReadAt)) (x : Bytes × ReadAt) : GetSlot :=
  (askedFor rs x.1).getD (ownSlot x.1 x.2)

theorem sendAll_reads {t : ResponseType} {now : Int64} {w q : Bytes} (hw : w.length = 8192)
    (hq : q.length = 8192) (rs : List (Bytes × ReadAt)) (more : Bytes) (l : List (Bytes × ReadAt))
    (h : ∀ x ∈ l, (answered rs x).avail = true →
      PlainKey (answered rs x).e.key 8192 ∧ (response t (answered rs x).e).isSome) (fuel : Nat)
    (hf : l.length < fuel) :
    ∃ b, sendAll t rs l = some b ∧ readAnswers now w q fuel (b ++ more) =
      .ok (l.filterMap fun x => if (answered rs x).avail then some (shown t now (answered rs x).e)
        else none, more) := by
  induction l generalizing fuel with
  | nil =>
    cases fuel with
    | zero => simp at hf
    | succ fuel =>
      exact ⟨_, rfl, by simp only [readAnswers, readAnswer_end, List.filterMap_nil]⟩
  | cons x l ih =>
    cases fuel with
    | zero => simp at hf
    | succ fuel =>
      have hrest := fun y hy => h y (List.mem_cons_of_mem _ hy)
      simp only [List.length_cons] at hf
      by_cases ha : (answered rs x).avail = true
      · obtain ⟨bs, h1, h2⟩ := ih hrest fuel (by omega)
        obtain ⟨hk, hs⟩ := h x List.mem_cons_self ha
        obtain ⟨b, hb⟩ := Option.isSome_iff_exists.1 hs
        have hr := readAnswer_value (now := now) (q := q) (q' := w) (more := bs ++ more)
          (by rw [hq]; exact hk) (by omega) (by omega) hb
        refine ⟨b ++ bs, ?_, ?_⟩
        · rw [sendAll]
          have : sendSlot t ((askedFor rs x.1).getD (ownSlot x.1 x.2)) = some b := by
            show sendSlot t (answered rs x) = some b
            rw [sendSlot, if_pos ha, hb]
          simp only [this, h1]
        · rw [List.append_assoc]
          simp only [readAnswers, hr, h2]
          rw [List.filterMap_cons, if_pos ha]
          rfl
      · obtain ⟨bs, h1, h2⟩ := ih hrest (fuel + 1) (by omega)
        refine ⟨bs, ?_, ?_⟩
        · rw [sendAll]
          have : sendSlot t ((askedFor rs x.1).getD (ownSlot x.1 x.2)) = some [] := by
            show sendSlot t (answered rs x) = some []
            rw [sendSlot, if_neg ha]
          simp only [this, h1, List.nil_append]
        · rw [h2, List.filterMap_cons, if_neg ha]

/-- What has become of the read of one key, as the client should see it. -/
def ReadAt.found : ReadAt → Option Entry
  | .here o => if o.rc = .ok ∧ o.r = some .none_ then some o.e else none
  | .asked g => if g.avail then some g.e else none
  | .refused => none

theorem mem_askedMap {rs : List (Bytes × ReadAt)} {k : Bytes} {g : GetSlot} :
    (k, g) ∈ askedMap rs ↔ (k, ReadAt.asked g) ∈ rs := by
  induction rs with
  | nil => simp [askedMap]
  | cons x rs ih =>
    obtain ⟨k', r⟩ := x
    cases r with
    | here o => simp [askedMap, ih]
    | refused => simp [askedMap, ih]
    | asked g' =>
      rw [askedMap, List.mem_append, ih, List.mem_singleton, List.mem_cons, Prod.mk.injEq,
        Prod.mk.injEq, ReadAt.asked.injEq]
      exact or_comm

theorem askedFor_some {rs : List (Bytes × ReadAt)} {k : Bytes} {g : GetSlot}
    (h : askedFor rs k = some g) : (k, ReadAt.asked g) ∈ rs := by
  simp only [askedFor, Option.map_eq_some_iff] at h
  obtain ⟨⟨k', g'⟩, h1, h2⟩ := h
  have h3 := List.find?_some h1
  have h4 := List.mem_of_find?_eq_some h1
  simp only [decide_eq_true_eq] at h3
  simp only at h2
  subst h2 h3
  exact mem_askedMap.1 h4

theorem askedFor_none {rs : List (Bytes × ReadAt)} {k : Bytes} (h : askedFor rs k = none) (g : GetSlot) :
    (k, ReadAt.asked g) ∉ rs := by
  intro hm
  have := mem_askedMap.2 hm
  simp only [askedFor, Option.map_eq_none_iff, List.find?_eq_none] at h
  exact h _ this (by simp)

theorem nodup_fst_inj {α β : Type} {l : List (α × β)} (h : (l.map (·.1)).Nodup) {a : α} {b c : β}
    (hb : (a, b) ∈ l) (hc : (a, c) ∈ l) : b = c := by
  induction l with
  | nil => simp at hb
  | cons x l ih =>
    rw [List.map_cons, List.nodup_cons] at h
    rw [List.mem_cons] at hb hc
    rcases hb with hb | hb <;> rcases hc with hc | hc
    · rw [← hc] at hb; exact (Prod.mk.inj hb).2
    · exact absurd (List.mem_map.2 ⟨_, hc, by rw [← hb]⟩) h.1
    · exact absurd (List.mem_map.2 ⟨_, hb, by rw [← hc]⟩) h.1
    · exact ih h.2 hb hc

/-- Every key is answered with the outcome of a read of that key in this request; if no key is
repeated, with its own. -/
theorem answered_outcome (rs : List (Bytes × ReadAt)) {x : Bytes × ReadAt} (hx : x ∈ rs) :
    ∃ r, (x.1, r) ∈ rs ∧ (((rs.map (·.1)).Nodup → r = x.2) ∧
      r.found = if (answered rs x).avail then some (answered rs x).e else none) := by
  obtain ⟨k, r⟩ := x
  cases ha : askedFor rs k with
  | some g =>
    have hm := askedFor_some ha
    refine ⟨.asked g, hm, fun hnd => ?_, ?_⟩
    · exact nodup_fst_inj hnd hm hx
    · simp [answered, ha, ReadAt.found]
  | none =>
    refine ⟨r, hx, fun _ => rfl, ?_⟩
    simp only [answered, ha, Option.getD_none]
    cases r with
    | here o => simp [ownSlot, ReadAt.found]
    | asked g => exact absurd hx (askedFor_none ha g)
    | refused => simp [ownSlot, ReadAt.found]

/-- The records of the request can be sent: keys as in the text protocol, and all lengths within
`int`. -/
def Sendables (t : ResponseType) (rs : List (Bytes × ReadAt)) : Prop :=
  ∀ x ∈ rs, ∀ e, x.2.found = some e → PlainKey e.key 8192 ∧ (response t e).isSome

/-- A request for several different keys is answered, in the order of the keys, with the value found
for each key and nothing for the keys without one, and then the end; the client reads exactly that. -/
theorem C64_answers (t : ResponseType) (now : Int64) (w q : Bytes) (hw : w.length = 8192)
    (hq : q.length = 8192) (rs : List (Bytes × ReadAt)) (hnd : (rs.map (·.1)).Nodup)
    (hs : Sendables t rs) (more : Bytes) (fuel : Nat) (hf : rs.length < fuel) :
    ∃ b, getServe t rs = some b ∧ readAnswers now w q fuel (b ++ more) =
      .ok (rs.filterMap fun x => x.2.found.map (shown t now), more) := by
  have key : ∀ x ∈ rs, x.2.found = if (answered rs x).avail then some (answered rs x).e else none := by
    intro x hx
    obtain ⟨r, -, h2, h3⟩ := answered_outcome rs hx
    rw [← h3, h2 hnd]
  obtain ⟨b, h1, h2⟩ := sendAll_reads (t := t) (now := now) hw hq rs more rs (fun x hx ha => by
    have := key x hx
    rw [if_pos ha] at this
    exact hs x hx _ this) fuel hf
  refine ⟨b, h1, ?_⟩
  rw [h2]
  congr 2
  refine List.filterMap_congr fun x hx => ?_
  rw [key x hx]
  split <;> simp

example : getServe .get
    [([97], .asked { e := { key := [97], size := 2, data := [120, 121] }, avail := true }),
      ([98], .refused),
      ([99], .here { rc := .ok, r := some .none_, e := { key := [99], flag := 7, size := 1, data := [122] } })] =
    some (ascii "VALUE a 0 2\r\nxy\r\nVALUE c 7 1\r\nz\r\nEND\r\n") := by decide +kernel

/-- If keys are repeated, every answer is still the value of a read of that key made for this request,
and the client reads as many answers as there are keys found. -/
theorem C64_repeated (t : ResponseType) (now : Int64) (w q : Bytes) (hw : w.length = 8192)
    (hq : q.length = 8192) (rs : List (Bytes × ReadAt)) (hs : Sendables t rs) (more : Bytes) (fuel : Nat)
    (hf : rs.length < fuel) :
    ∃ (b : Bytes) (f : Bytes × ReadAt → Option Entry), getServe t rs = some b ∧
      readAnswers now w q fuel (b ++ more) = .ok (rs.filterMap fun x => (f x).map (shown t now), more) ∧
      ∀ x ∈ rs, ∃ r, (x.1, r) ∈ rs ∧ f x = r.found := by
  have key := fun x hx => answered_outcome rs (x := x) hx
  obtain ⟨b, h1, h2⟩ := sendAll_reads (t := t) (now := now) hw hq rs more rs (fun x hx ha => by
    obtain ⟨r, hr, -, h3⟩ := key x hx
    rw [if_pos ha] at h3
    exact hs _ hr _ h3) fuel hf
  refine ⟨b, fun x => if (answered rs x).avail then some (answered rs x).e else none, h1, ?_, ?_⟩
  · rw [h2]
    congr 2
    refine List.filterMap_congr fun x _ => ?_
    by_cases h : (answered rs x).avail = true <;> simp [h]
  · intro x hx
    obtain ⟨r, hr, -, h3⟩ := key x hx
    exact ⟨r, hr, h3.symm⟩

/-! ### Keys read here -/

/-- The entry a client sees for an item. -/
def Item.reply (t : ResponseType) (k : Bytes) (it : Item) : Entry :=
  { key := k, flag := it.flag, size := UInt64.ofNat it.data.length, data := it.data,
    version := if t = .get then 0 else it.version }

theorem get_found {s : Store} (hs : s.Ok) (env : Env) (k : Bytes) :
    (ReadAt.here (get s env { key := k } {}).2).found = match lookup s env.now k with
      | none => none
      | some it => some { it.reply .gets k with expire := it.expire } := by
  cases hd : dbGet s.db k with
  | none =>
    rw [lookup_none_of_absent hd]
    simp [ReadAt.found, get, getRead_none (e := { key := k }) hd]
  | some raw =>
    have hr := hs.1 k raw hd
    rw [lookup_of_raw hd hr]
    simp only [get, getRead_some (e := { key := k }) hd hr]
    by_cases hx : isExpired false (itemOf raw).expire env.now = true
    · simp [hx, ReadAt.found]
    · have hx : isExpired false (itemOf raw).expire env.now = false := by simpa using hx
      simp only [hx, Bool.false_eq_true, if_false, ReadAt.found]
      have h1 := rawOk_size hr { key := k }
      have h2 : (fill raw { key := k }).size = UInt64.ofNat (itemOf raw).data.length := by
        refine UInt64.toNat_inj.1 ?_
        rw [h1, UInt64.toNat_ofNat']
        have := (fill raw { key := k }).size.toNat_lt
        rw [h1] at this
        rw [show (itemOf raw).data.length = raw.length - headerSize by simp [itemOf], Nat.mod_eq_of_lt this]
      simp only [and_self, if_true, Option.some.injEq, Item.reply]
      rw [← h2]
      simp [fill, itemOf]

/-- A request for several different keys that are all read from the own storage, each at its own
time, is answered with the values the storage holds at that time, in the order of the keys. -/
theorem C64_local (t : ResponseType) (ht : t ≠ .dump) (now : Int64) (w q : Bytes)
    (hw : w.length = 8192) (hq : q.length = 8192) (l : List (Bytes × Store × Env))
    (hnd : (l.map (·.1)).Nodup) (hk : ∀ x ∈ l, PlainKey x.1 8192 ∧ x.2.1.Ok)
    (hsz : ∀ x ∈ l, ∀ it, lookup x.2.1 x.2.2.now x.1 = some it →
      it.data.length + x.1.length + 8192 ≤ intMax) (more : Bytes) (fuel : Nat)
    (hf : l.length < fuel) :
    ∃ b, getServe t (l.map fun x => (x.1, .here (get x.2.1 x.2.2 { key := x.1 } {}).2)) = some b ∧
      readAnswers now w q fuel (b ++ more) =
        .ok (l.filterMap fun x => (lookup x.2.1 x.2.2.now x.1).map (Item.reply t x.1), more) := by
  have hlen : ∀ {it : Item} {k : Bytes}, it.data.length + k.length + 8192 ≤ intMax →
      (UInt64.ofNat it.data.length).toNat = it.data.length := by
    intro it k h
    rw [UInt64.toNat_ofNat', Nat.mod_eq_of_lt]
    simp only [intMax] at h
    omega
  obtain ⟨b, h1, h2⟩ := C64_answers t now w q hw hq
    (l.map fun x => (x.1, .here (get x.2.1 x.2.2 { key := x.1 } {}).2))
    (by rw [List.map_map]; exact hnd) (by
      intro y hy e he
      obtain ⟨x, hx, rfl⟩ := List.mem_map.1 hy
      dsimp only at he
      rw [get_found (hk x hx).2] at he
      cases hl : lookup x.2.1 x.2.2.now x.1 with
      | none => rw [hl] at he; cases he
      | some it =>
        rw [hl] at he
        injection he with he
        subst he
        have hb := hsz x hx it hl
        refine ⟨(hk x hx).1, ?_⟩
        rw [response, if_pos]
        · rfl
        · simp only [Item.reply, hlen hb]
          exact ⟨hb, Nat.le_refl _⟩) more fuel (by rw [List.length_map]; exact hf)
  refine ⟨b, h1, ?_⟩
  rw [h2, List.filterMap_map]
  congr 2
  refine List.filterMap_congr fun x hx => ?_
  simp only [Function.comp]
  rw [get_found (hk x hx).2]
  cases hl : lookup x.2.1 x.2.2.now x.1 with
  | none => rfl
  | some it =>
    have hb := hlen (hsz x hx it hl)
    simp only [Option.map_some, Option.some.injEq, shown, Item.reply, hb]
    cases t with
    | dump => exact absurd rfl ht
    | get => simp
    | gets => simp

example : (ReadAt.here (get { db := [([107], List.replicate 12 0 ++ 1 :: List.replicate 15 0 ++ [118])], cacheSize := 4 } { now := 5 } { key := [107] } {}).2).found =
    some { key := [107], size := 1, data := [118] } := by decide +kernel

/-! ### Keys read at another node -/

/-- A try of a forwarded read that ends with the connection closed in the middle of the answer: to
the value `v` the key had at that moment. -/
def BrokenTry (t : ResponseType) (n : Nat) (k : Bytes) (v : Option Entry) (x : GetTry) : Prop :=
  x.closed = true ∧ CutAnswer t n k v x.stream

theorem GetSlot.value_of {g : GetSlot} {k : Bytes} {e : Entry} (hk : g.e.key = k) (ho : g.e.option = 0)
    (he : e.key = k) (heo : e.option = 0) : g.value e = { e := e, avail := true } := by
  cases e
  cases g with
  | mk ge a =>
    cases ge
    simp only at hk ho he heo
    subst hk ho he heo
    rfl

theorem getTries_broken {now : Int64} {t : ResponseType} {w q k : Bytes} (hq : 32 ≤ q.length)
    (hw : w.length = q.length) (P : GetSlot → Prop) (R : Option Entry → Prop)
    (hP : ∀ g e, P g → g.e.key = k → g.e.option = 0 → R (some e) → e.key = k →
      P (g.header (shown t now e)) ∧ P (g.value (shown t now e)))
    (ts us : List GetTry) (n : Nat) (hn : ts.length ≤ n) (g : GetSlot) (hg : g.e.key = k)
    (ho : g.e.option = 0) (hp : P g) (h : ∀ x ∈ ts, ∃ v, BrokenTry t q.length k v x ∧ R v) :
    ∃ g', g'.e.key = k ∧ g'.e.option = 0 ∧ P g' ∧
      getTries now w q n (ts ++ us) [] g = getTries now w q (n - ts.length) us [] g' := by
  induction ts generalizing n g with
  | nil => exact ⟨g, hg, ho, hp, rfl⟩
  | cons x ts ih =>
    cases n with
    | zero => simp at hn
    | succ n =>
      obtain ⟨v, ⟨hcl, hcut⟩, hR⟩ := h x List.mem_cons_self
      obtain ⟨g', rest, h1, h2⟩ := getClient_cut (now := now) hq hw hg hcut
      have hv := hcut.1
      have hg' : g'.e.key = k ∧ g'.e.option = 0 ∧ P g' := by
        rcases h2 with h2 | ⟨e, h2, h3⟩
        · rw [h2]; exact ⟨hg, ho, hp⟩
        · subst h2
          have := hP g e hp hg ho hR (hv e rfl).1
          rcases h3 with h3 | h3 <;> rw [h3]
          · exact ⟨hg, ho, this.1⟩
          · exact ⟨hg, ho, this.2⟩
      obtain ⟨g'', a, b, c, d⟩ := ih n (by simpa using hn) g' hg'.1 hg'.2.1 hg'.2.2
        (fun y hy => h y (List.mem_cons_of_mem _ hy))
      refine ⟨g'', a, b, c, ?_⟩
      rw [List.cons_append, getTries, List.nil_append, h1]
      simp only [hcl, if_true]
      rw [d]
      simp

/-- However many tries break in the middle of an answer, whatever value the key had then: if a later
try brings a complete answer with a value, the client gets exactly this value.  (`get` does not carry
the version, so that it is 0.) -/
theorem C64_forwarded (t : ResponseType) (now : Int64) (w q : Bytes) (hw : w.length = 8192)
    (hq : q.length = 8192) (k : Bytes) (ts us : List GetTry) (hn : ts.length < maxRetry)
    (hb : ∀ x ∈ ts, ∃ v, BrokenTry t 8192 k v x) (e : Entry) (he : e.key = k) (hk : PlainKey k 8192)
    (b more : Bytes) (hr : response t e = some b) (c : Bool) :
    askOther now w q k (ts ++ ⟨b ++ (strEnd ++ crlf ++ more), c⟩ :: us) =
      (.done, { e := shown t now e, avail := true }, more) := by
  obtain ⟨g', h1, h2, -, h4⟩ := getTries_broken (now := now) (t := t) (w := w) (q := q) (k := k)
    (by omega) (by omega) (fun _ => True) (fun _ => True) (fun _ _ _ _ _ _ _ => ⟨trivial, trivial⟩)
    ts (⟨b ++ (strEnd ++ crlf ++ more), c⟩ :: us) maxRetry (by omega) { e := { key := k } } rfl rfl trivial
    (fun x hx => by
      obtain ⟨v, hv⟩ := hb x hx
      exact ⟨v, by rw [hq]; exact hv, trivial⟩)
  have hsub : ∃ m, maxRetry - ts.length = m + 1 := ⟨maxRetry - ts.length - 1, by omega⟩
  obtain ⟨m, hm⟩ := hsub
  have hfuel : ∃ n, ([] ++ (b ++ (strEnd ++ crlf ++ more))).length + 1 = n + 2 :=
    ⟨([] ++ (b ++ (strEnd ++ crlf ++ more))).length - 1, by simp [strEnd, crlf]; omega⟩
  obtain ⟨n, hfuel⟩ := hfuel
  rw [askOther, h4, hm, getTries]
  dsimp only
  rw [hfuel, List.nil_append, getClient_full n (by omega) (by omega) (by rw [h1, he])
    (by rw [he, hq]; exact hk) hr]
  rw [GetSlot.value_of h1 h2 (e := shown t now e) he rfl]

example : (askOther 0 (List.replicate 8192 0) (List.replicate 8192 0) [97]
    [⟨ascii "VALUE a 0 5 3\r\nabc", true⟩, ⟨[], true⟩,
      ⟨ascii "VALUE a 1 2 4\r\nxy\r\nEND\r\n", true⟩]) =
    (.done, { e := { key := [97], flag := 1, size := 2, version := 4, data := [120, 121] }, avail := true },
      []) := by decide +kernel

/-- If the key has no value during the tries, or no try gets any answer, the client gets none. -/
theorem C64_absent (t : ResponseType) (now : Int64) (w q : Bytes) (hw : w.length = 8192)
    (hq : q.length = 8192) (k : Bytes) (ts us : List GetTry) (hn : ts.length ≤ maxRetry)
    (hb : ∀ x ∈ ts, BrokenTry t 8192 k none x) (more : Bytes) (c : Bool)
    (hu : us = [] ∨ us = [⟨strEnd ++ crlf ++ more, c⟩]) :
    (askOther now w q k (ts ++ us)).2.1.avail = false := by
  obtain ⟨g', h1, h2, h3, h4⟩ := getTries_broken (now := now) (t := t) (w := w) (q := q) (k := k)
    (by omega) (by omega) (fun g => g.avail = false) (fun v => v = none)
    (fun _ _ _ _ _ h _ => nomatch h)
    ts us maxRetry hn { e := { key := k } } rfl rfl rfl
    (fun x hx => ⟨none, by rw [hq]; exact hb x hx, rfl⟩)
  rw [askOther, h4]
  rcases hu with rfl | rfl
  · cases maxRetry - ts.length <;> exact h3
  · cases maxRetry - ts.length with
    | zero => exact h3
    | succ m =>
      rw [getTries]
      dsimp only
      rw [List.nil_append, getClient_end]
      exact h3

/-- As long as the record does not change during the tries, the client gets it or, if no try brings
the data, nothing.  Missing for the full claim: if it changes, see `C64_mixed`. -/
theorem C64_unchanged_partial (t : ResponseType) (now : Int64) (w q : Bytes) (hw : w.length = 8192)
    (hq : q.length = 8192) (k : Bytes) (e : Entry) (ts : List GetTry) (hn : ts.length ≤ maxRetry)
    (hb : ∀ x ∈ ts, BrokenTry t 8192 k (some e) x) :
    (askOther now w q k ts).2.1.avail = true → (askOther now w q k ts).2.1.e = shown t now e := by
  obtain ⟨g', h1, h2, h3, h4⟩ := getTries_broken (now := now) (t := t) (w := w) (q := q) (k := k)
    (by omega) (by omega) (fun g => g.avail = true → g.e = shown t now e) (fun v => v = some e)
    (fun g e' hp hg ho hR hk' => by
      injection hR with hR
      subst hR
      refine ⟨fun ha => ?_, fun _ => ?_⟩
      · have := hp ha
        simp only [GetSlot.header, this]
      · rw [GetSlot.value_of hg ho (e := shown t now e') hk' rfl])
    ts [] maxRetry hn { e := { key := k } } rfl rfl (fun h => nomatch h)
    (fun x hx => ⟨some e, by rw [hq]; exact hb x hx, rfl⟩)
  rw [List.append_nil] at h4
  rw [askOther, h4]
  intro ha
  have : (getTries now w q (maxRetry - ts.length) [] [] g').2.1 = g' := by
    cases maxRetry - ts.length <;> rfl
  rw [this] at ha ⊢
  exact h3 ha

/-! ### What goes wrong -/

/-- If the other node cannot be reached at all, the client is told that the key has no value. -/
theorem C64_failure_is_miss (t : ResponseType) (now : Int64) (w q k : Bytes) :
    (askOther now w q k (List.replicate maxRetry ⟨[], true⟩)).1 = .failed ∧
      getServe t [(k, .asked (askOther now w q k (List.replicate maxRetry ⟨[], true⟩)).2.1)] =
        some (strEnd ++ crlf) := by
  have h : askOther now w q k (List.replicate maxRetry ⟨[], true⟩) =
      (.failed, { e := { key := k } }, []) := by
    simp [askOther, maxRetry, List.replicate, getTries, getClient, readLine]
  rw [h]
  refine ⟨rfl, ?_⟩
  simp [getServe, sendAll, askedFor, askedMap, sendSlot]

/-- The connection breaks after the value `e` has been read but before the end of the answer; the
next try breaks within the data of the value `e'` the key has by then; and then the node cannot be
reached any more.  The entry has the data of the old value, and flags, size and version of the new
one. -/
theorem C64_mixed (t : ResponseType) (now : Int64) (w q : Bytes) (hw : w.length = 8192)
    (hq : q.length = 8192) (k : Bytes) (hk : PlainKey k 8192) (e e' : Entry) (he : e.key = k)
    (he' : e'.key = k) (b b' : Bytes) (hb : response t e = some b) (hb' : response t e' = some b') :
    askOther now w q k [⟨b, true⟩, ⟨responseLine t e', true⟩, ⟨[], true⟩, ⟨[], true⟩] =
      (.failed, { e := { shown t now e' with data := e.data.take e.size.toNat }, avail := true }, []) := by
  have h1 : getClient now w q (b.length + 1) b { e := { key := k } } =
      (.failed, { e := shown t now e, avail := true }, []) := by
    have hfull := readAnswer_value (now := now) (q := q) (q' := w) (more := []) (by rw [he, hq]; exact hk)
      (by omega) (by omega) hb
    rw [List.append_nil] at hfull
    rw [getClient_value hfull (by rw [he]), getClient_noLine (by simp)]
    have : b ≠ [] := by
      rintro rfl
      simp [readAnswer, readLine] at hfull
    have : b.length ≠ 0 := fun h => this (List.length_eq_zero_iff.1 h)
    rw [if_neg this]
    exact congrArg (fun g => (GetEnd.failed, g, ([] : Bytes)))
      (GetSlot.value_of (k := k) (e := shown t now e) rfl rfl he rfl)
  have h2 := getClient_header (now := now) (t := t) (w := w) (q := q) (d := [])
    (g := { e := shown t now e, avail := true }) (n := (responseLine t e').length)
    (by rw [he', hq]; exact hk) (by omega) (by omega) hb' (by rw [he']; exact he) (by simp)
  rw [List.append_nil] at h2
  have h3 : ∀ g, getClient now w q 1 [] g = (.failed, g, []) := fun g => by
    rw [getClient_noLine (by simp)]; rfl
  simp only [askOther, maxRetry, getTries, List.nil_append, h1, if_true, h2, List.length_nil, h3]
  simp only [GetSlot.header, shown, he, he']

/-- If the new value is not longer than the old one, the client gets data that never belonged to
this version: a cas with it overwrites the new value without anybody having seen it. -/
theorem C64_mixed_answer (now : Int64) (w q : Bytes) (hw : w.length = 8192)
    (hq : q.length = 8192) (k : Bytes) (hk : PlainKey k 8192) (e e' : Entry) (he : e.key = k)
    (he' : e'.key = k) (b b' : Bytes) (hb : response .gets e = some b) (hb' : response .gets e' = some b')
    (hle : e'.size.toNat ≤ e.size.toNat) (more : Bytes) (o : Entry)
    (ho : o =
      { key := k, flag := e'.flag, size := e'.size, version := e'.version,
        data := e.data.take e'.size.toNat }) :
    ∃ a, getServe .gets [(k, .asked (askOther now w q k
          [⟨b, true⟩, ⟨responseLine .gets e', true⟩, ⟨[], true⟩, ⟨[], true⟩]).2.1)] = some a ∧
      readAnswers now w q 2 (a ++ more) = .ok ([o], more) := by
  rw [C64_mixed .gets now w q hw hq k hk e e' he he' b b' hb hb']
  have hlen : e.size.toNat ≤ e.data.length := by
    simp only [response] at hb
    split at hb
    case isFalse => exact absurd hb (by simp)
    case isTrue h => exact h.2
  have hmax : e'.size.toNat + k.length + 8192 ≤ intMax := by
    simp only [response] at hb'
    split at hb'
    case isFalse => exact absurd hb' (by simp)
    case isTrue h => rw [he'] at h; exact h.1
  obtain ⟨a, h1, h2⟩ := C64_answers .gets now w q hw hq
    [(k, .asked { e := { shown .gets now e' with data := e.data.take e.size.toNat }, avail := true })]
    (by simp) (by
      intro x hx y hy
      rw [List.mem_singleton] at hx
      subst hx
      simp only [ReadAt.found, if_true, Option.some.injEq] at hy
      subst hy
      refine ⟨by simp only [shown, he']; exact hk, ?_⟩
      rw [response, if_pos]
      · rfl
      · simp only [shown, List.length_take, he']
        exact ⟨hmax, by omega⟩) more 2 (by simp)
  refine ⟨a, h1, ?_⟩
  rw [h2]
  simp only [ReadAt.found, shown, List.filterMap_cons, if_true, Option.map_some, List.filterMap_nil,
    List.take_take, Nat.min_eq_left hle, he', ho]
  simp

example : getServe .gets [([97], .asked (askOther 0 (List.replicate 8192 0) (List.replicate 8192 0) [97]
    [⟨ascii "VALUE a 0 3 1\r\nold\r\n", true⟩, ⟨ascii "VALUE a 9 3 2\r\nn", true⟩]).2.1)] =
    some (ascii "VALUE a 9 3 2\r\nold\r\nEND\r\n") := by decide +kernel

/-- If it is longer, the answer is read from beyond the end of the buffer. -/
theorem C64_overread (t : ResponseType) (now : Int64) (w q : Bytes) (hw : w.length = 8192)
    (hq : q.length = 8192) (k : Bytes) (hk : PlainKey k 8192) (e e' : Entry) (he : e.key = k)
    (he' : e'.key = k) (b b' : Bytes) (hb : response t e = some b) (hb' : response t e' = some b')
    (hgt : e.size.toNat < e'.size.toNat) :
    getServe t [(k, .asked (askOther now w q k
      [⟨b, true⟩, ⟨responseLine t e', true⟩, ⟨[], true⟩, ⟨[], true⟩]).2.1)] = none := by
  rw [C64_mixed t now w q hw hq k hk e e' he he' b b' hb hb']
  have : ¬ (e'.size.toNat ≤ min e.size.toNat e.data.length) := by omega
  simp [getServe, sendAll, askedFor, askedMap, sendSlot, response, shown, this]

/-- The line ERROR as the first word of an answer does not close the connection: what comes behind it is
read by the next try, and the answer to that one is left for the next read. -/
theorem C64_error_shifts (t : ResponseType) (now : Int64) (w q : Bytes) (hw : w.length = 8192)
    (hq : q.length = 8192) (k : Bytes) (hk : PlainKey k 8192) (e : Entry) (he : e.key = k)
    (b next : Bytes) (hb : response t e = some b) (c : Bool) (ts : List GetTry) :
    askOther now w q k (⟨[69, 82, 82, 79, 82] ++ crlf ++ (b ++ (strEnd ++ crlf)), false⟩ ::
        ⟨next, c⟩ :: ts) =
      (.done, { e := shown t now e, avail := true }, next) := by
  obtain ⟨w', h1, h2, -⟩ := scanWord_tok (w := [69, 82, 82, 79, 82]) (c := chNl) (rest := []) (q := w) 0
    (by decide) (by decide) (by rw [hw]; decide) (fun h => absurd h (by decide))
  have h1' : scanWord ([69, 82, 82, 79, 82] ++ [chNl]) w = .ok ([chNl], w') := h1
  have hfirst : ∀ n s g, getClient now w q (n + 1) ([69, 82, 82, 79, 82] ++ crlf ++ s) g =
      (.failed, g, s) := by
    intro n s g
    rw [getClient, readLine_crlf (show ∀ c ∈ ([69, 82, 82, 79, 82] : Bytes), c ≠ chNl by decide)]
    simp only
    rw [if_neg (by decide), h1']
    simp only
    rw [if_pos (by rw [h2]; decide)]
  rw [askOther, show maxRetry = 2 + 1 + 1 from rfl, getTries]
  simp only [List.nil_append]
  rw [hfirst]
  simp only [Bool.false_eq_true, if_false]
  rw [getTries]
  obtain ⟨n, hn⟩ : ∃ n, ((b ++ (strEnd ++ crlf)) ++ next).length + 1 = n + 2 :=
    ⟨((b ++ (strEnd ++ crlf)) ++ next).length - 1, by simp [crlf, strEnd]; omega⟩
  simp only [hn]
  rw [show b ++ (strEnd ++ crlf) ++ next = b ++ (strEnd ++ crlf ++ next) by simp,
    getClient_full n (by omega) (by omega) (by rw [he]) (by rw [he, hq]; exact hk) hb]
  simp only
  rw [GetSlot.value_of (g := { e := { key := k } }) (k := k) rfl rfl (e := shown t now e) he rfl]

example (w q : Bytes) (hw : w.length = 8192) (hq : q.length = 8192) :
    askOther 100 w q [97] [
        ⟨[69, 82, 82, 79, 82, 13, 10] ++ ([86, 65, 76, 85, 69, 32, 97, 32, 53, 32, 49, 13, 10, 55, 13, 10] ++
          [69, 78, 68, 13, 10]), false⟩, ⟨[120], true⟩] =
      (.done, { e := { key := [97], flag := 5, size := 1, data := [55] }, avail := true }, [120]) :=
  C64_error_shifts .get 100 w q hw hq [97] ⟨by decide, by decide, by decide⟩ { key := [97], flag := 5, size := 1, data := [55] }
    rfl _ _ (by decide +kernel) true []

/-- A line END that comes late, for an earlier read on the same connection, is taken for the answer:
the key has the value `e` but the client gets none, and the answer to this read is left for the next. -/
theorem C64_late_end (t : ResponseType) (now : Int64) (w q k b : Bytes) (e : Entry)
    (hb : response t e = some b) (ts : List GetTry) :
    getTries now w q maxRetry (⟨b ++ (strEnd ++ crlf), true⟩ :: ts) (strEnd ++ crlf) { e := { key := k } } =
        (.done, { e := { key := k } }, b ++ (strEnd ++ crlf)) ∧
      (e.key = k → PlainKey k 8192 → w.length = 8192 → q.length = 8192 →
        (askOther now w q k (⟨b ++ (strEnd ++ crlf), true⟩ :: ts)).2.1 =
          { e := shown t now e, avail := true }) := by
  constructor
  · rw [maxRetry, getTries]
    dsimp only
    rw [getClient_end]
  · intro he hk hw hq
    have := C64_forwarded t now w q hw hq k [] ts (by decide) (by simp) e he hk b [] hb true
    rw [List.append_nil] at this
    rw [List.nil_append] at this
    rw [this]

/-- A binary get reads the version, too: from the own storage it gets it, but handed to another node
as the text command `get` it always gets 0. -/
theorem C64_version_lost (now : Int64) (w q : Bytes) (hw : w.length = 8192) (hq : q.length = 8192)
    (k : Bytes) (hk : PlainKey k 8192) {s : Store} (hs : s.Ok) (env : Env) (it : Item)
    (hl : lookup s env.now k = some it) (hmax : it.data.length + k.length + 8192 ≤ intMax) :
    (∃ e, (ReadAt.here (get s env { key := k } {}).2).found = some e ∧ e.version = it.version) ∧
      ∃ b, getServe .get [(k, .here (get s env { key := k } {}).2)] = some b ∧
        (ReadAt.asked (askOther now w q k [⟨b, true⟩]).2.1).found = some (it.reply .get k) := by
  have hlen : (UInt64.ofNat it.data.length).toNat = it.data.length := by
    rw [UInt64.toNat_ofNat', Nat.mod_eq_of_lt]
    simp only [intMax] at hmax
    omega
  have hf := get_found hs env k
  rw [hl] at hf
  refine ⟨⟨_, hf, rfl⟩, ?_⟩
  have hresp : ∃ b, response .get { it.reply .gets k with expire := it.expire } = some b := by
    rw [response, if_pos]
    · exact ⟨_, rfl⟩
    · simp only [Item.reply, hlen]
      exact ⟨hmax, Nat.le_refl _⟩
  obtain ⟨b, hb⟩ := hresp
  have hav : (get s env { key := k } {}).2.rc = .ok ∧ (get s env { key := k } {}).2.r = some .none_ := by
    by_contra hc
    rw [ReadAt.found, if_neg hc] at hf
    cases hf
  rw [ReadAt.found, if_pos hav] at hf
  injection hf with hf
  refine ⟨b ++ (strEnd ++ crlf), ?_, ?_⟩
  · simp [getServe, sendAll, askedFor, askedMap, ownSlot, sendSlot, hav.1, hav.2, hf, hb]
  · have := C64_forwarded .get now w q hw hq k [] [] (by decide) (by simp)
      { it.reply .gets k with expire := it.expire } rfl hk b [] hb true
    rw [List.append_nil] at this
    rw [List.nil_append] at this
    rw [this]
    simp [ReadAt.found, shown, Item.reply, hlen]

/-- C64, violation.  A size of 2147483647 in the answer of another node passes the check, but two more do not fit an `int`: the
node that asked copies from a null pointer, whatever follows in the stream. -/
theorem C64_size_overflow (n : Nat) (s : Bytes) :
    (getClient 3000000 (List.replicate 1024 0) (List.replicate 1024 0) (n + 1)
      (ascii "VALUE k 0 2147483647" ++ crlf ++ s) { e := { key := [107] } }).1 = .ub := by
  have hl : ∀ c ∈ ascii "VALUE k 0 2147483647", c ≠ chNl := by decide
  have h1 : ∃ p w', scanWord (ascii "VALUE k 0 2147483647" ++ [chNl]) (List.replicate 1024 0) = .ok (p, w') ∧ cstr w' = strValue ∧
      ∃ e, entryParse 3000000 .get p (List.replicate 1024 0) { key := [] } = .ok e ∧ e.key = [107] ∧ e.size = 2147483647 := by
    refine ⟨ascii " k 0 2147483647" ++ [chNl], ascii "VALUE" ++ List.replicate 1019 0, by decide +kernel, by decide +kernel,
      { key := [107], size := 2147483647 }, by decide +kernel, rfl, rfl⟩
  obtain ⟨p, w', h1, h2, e, h3, h4, h5⟩ := h1
  simp only [getClient, readLine_crlf hl]
  rw [if_neg (by decide)]
  simp only [h1, h2, h3, h4, h5, ne_eq, not_true_eq_false, if_false, readSize]
  rw [if_pos (by decide)]
  rfl

end Flare
