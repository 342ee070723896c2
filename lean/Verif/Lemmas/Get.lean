import Verif.Model.Get
import Verif.Lemmas.TextLines

/-! Lemmas about reading answers to `get`. -/
namespace Flare

theorem readLine_noNl {l : Bytes} (h : ∀ c ∈ l, c ≠ chNl) : readLine l = none := by
  have : l.takeWhile (· ≠ chNl) = l := by
    induction l with
    | nil => rfl
    | cons x l ih =>
      have hx := h x List.mem_cons_self
      simp only [ne_eq] at hx ih ⊢
      rw [List.takeWhile_cons, if_pos (by simpa using hx), ih fun c hc => h c (List.mem_cons_of_mem _ hc)]
  simp only [readLine]
  rw [this, List.drop_length]

/-- The entry with the fields of a VALUE line. -/
def GetSlot.header (g : GetSlot) (e : Entry) : GetSlot :=
  { g with e := { g.e with flag := e.flag, expire := e.expire, size := e.size, version := e.version } }

/-- The entry with the fields and the data of an answer. -/
def GetSlot.value (g : GetSlot) (e : Entry) : GetSlot :=
  { e := { (g.header e).e with data := e.data }, avail := true }

/-- A complete VALUE answer is taken over. -/
theorem getClient_value {now : Int64} {w q s rest : Bytes} {e : Entry} {g : GetSlot} {n : Nat}
    (h : readAnswer now w q s = .ok (.value e rest)) (hk : g.e.key = e.key) :
    getClient now w q (n + 1) s g = getClient now w q n rest (g.value e) := by
  unfold readAnswer at h
  rw [getClient]
  cases hl : readLine s with
  | none => simp [hl] at h
  | some x =>
    obtain ⟨line, s'⟩ := x
    simp only [hl] at h
    dsimp only
    by_cases hend : line = strEnd ++ [chNl]
    · simp [hend] at h
    · simp only [if_neg hend] at h ⊢
      cases hw : scanWord line w with
      | error f => simp [hw] at h
      | ok y =>
        obtain ⟨p, w'⟩ := y
        simp only [hw] at h
        dsimp only
        by_cases hv : cstr w' ≠ strValue
        · simp [hv] at h
        · simp only [if_neg hv] at h ⊢
          cases hp : entryParse now .get p q { key := [] } with
          | error f => simp [hp] at h
          | ok e' =>
            simp only [hp] at h
            dsimp only
            cases hr : readSize (e'.size.toNat + 2) s' with
            | error f => simp [hr] at h
            | ok z =>
              obtain ⟨d, s''⟩ := z
              simp only [hr] at h
              injection h with h
              injection h with h1 h2
              subst h1 h2
              rw [if_neg (by simpa using hk)]
              dsimp only
              rfl

theorem getClient_end {now : Int64} {w q more : Bytes} {g : GetSlot} {n : Nat} :
    getClient now w q (n + 1) (strEnd ++ crlf ++ more) g = (.done, g, more) := by
  rw [getClient, readLine_crlf (show ∀ c ∈ strEnd, c ≠ chNl by decide)]
  simp

theorem getClient_noLine {now : Int64} {w q s : Bytes} {g : GetSlot} {n : Nat}
    (h : ∀ c ∈ s, c ≠ chNl) : getClient now w q n s g =
      (.failed, g, if n = 0 then s else []) := by
  cases n with
  | zero => rfl
  | succ n => rw [getClient, readLine_noNl h]; rfl

/-- The value of a record as `get` and `gets` show it. -/
def shown (t : ResponseType) (now : Int64) (e : Entry) : Entry :=
  { key := e.key, flag := e.flag, size := e.size, data := e.data.take e.size.toNat,
    version := if t = .gets ∨ t = .dump then e.version else 0,
    expire := if t = .dump then realtime now e.expire else 0 }

/-- The line without its end. -/
theorem responseLine_split {t : ResponseType} {e : Entry} {n : Nat} (hk : PlainKey e.key n) :
    ∃ l, responseLine t e = l ++ crlf ∧ ∀ c ∈ l, c ≠ chNl := by
  refine ⟨_, rfl, ?_⟩
  rw [cstr_plain hk.word]
  refine mem_app (mem_app (mem_app (mem_app (mem_app (by decide) (mem_space (plainKey_nl hk)))
    (mem_space (decimal_ne_nl _))) (mem_space (decimal_ne_nl _))) ?_) ?_
  · split
    · exact mem_space (decimal_ne_nl _)
    · simp
  · split
    · exact mem_space (decimalInt_ne_nl _)
    · simp

/-- The line is there but not all of the data. -/
theorem getClient_header {now : Int64} {t : ResponseType} {w q b d : Bytes} {e : Entry} {g : GetSlot}
    {n : Nat} (hk : PlainKey e.key q.length) (hq : 32 ≤ q.length) (hw : w.length = q.length)
    (hb : response t e = some b) (hg : g.e.key = e.key) (hd : d.length < e.size.toNat + 2) :
    getClient now w q (n + 1) (responseLine t e ++ d) g =
      (.failed, g.header (shown t now e), []) := by
  have hfull := readAnswer_value (now := now) (q := q) (q' := w) (more := []) hk hq hw hb
  simp only [response] at hb
  split at hb
  case isFalse => exact absurd hb (by simp)
  case isTrue hsz =>
  have hb := Option.some.inj hb
  obtain ⟨l, hl, hnl⟩ := responseLine_split (t := t) hk
  rw [← hb, hl] at hfull
  unfold readAnswer at hfull
  have e1 : l ++ crlf ++ e.data.take e.size.toNat ++ crlf ++ [] =
      l ++ crlf ++ (e.data.take e.size.toNat ++ crlf) := by simp
  rw [e1, readLine_crlf hnl] at hfull
  rw [hl, getClient, readLine_crlf hnl]
  dsimp only at hfull ⊢
  by_cases hend : l ++ [chNl] = strEnd ++ [chNl]
  · simp [hend] at hfull
  · simp only [if_neg hend] at hfull ⊢
    cases hs : scanWord (l ++ [chNl]) w with
    | error f => simp [hs] at hfull
    | ok y =>
      obtain ⟨p, w'⟩ := y
      simp only [hs] at hfull
      dsimp only
      by_cases hv : cstr w' ≠ strValue
      · simp [hv] at hfull
      · simp only [if_neg hv] at hfull ⊢
        cases hp : entryParse now .get p q { key := [] } with
        | error f => simp [hp] at hfull
        | ok e' =>
          simp only [hp] at hfull
          dsimp only
          cases hr : readSize (e'.size.toNat + 2) (e.data.take e.size.toNat ++ crlf) with
          | error f => simp [hr] at hfull
          | ok z =>
            obtain ⟨d', s''⟩ := z
            simp only [hr] at hfull
            injection hfull with h
            injection h with h1 h2
            have hkey : e'.key = e.key := by have := congrArg Entry.key h1; simpa using this
            have hsize : e'.size = e.size := by have := congrArg Entry.size h1; simpa using this
            have hflag : e'.flag = e.flag := by have := congrArg Entry.flag h1; simpa using this
            have hver := congrArg Entry.version h1
            have hexp := congrArg Entry.expire h1
            dsimp only at hver hexp
            rw [if_neg (by rw [hkey]; simpa using hg)]
            have hmax : ¬ (e.size.toNat + 2 > intMax) := by
              intro hc
              rw [hsize, readSize, if_pos hc] at hr
              cases hr
            have : readSize (e'.size.toNat + 2) d = .error .err := by
              rw [hsize, readSize, if_neg hmax, if_pos hd]
            rw [this]
            simp only [GetEnd.ofFault, GetSlot.header, shown, hsize, hflag, hver, hexp]

/-- What is sent for a key: its value, if it has one, and the end. -/
def fullAnswer (t : ResponseType) : Option Entry → Option Bytes
  | none => some (strEnd ++ crlf)
  | some e => (response t e).map fun b => b ++ (strEnd ++ crlf)

/-- `s` is an answer for the key `k`, which has or has not a value, cut short. -/
def CutAnswer (t : ResponseType) (n : Nat) (k : Bytes) (v : Option Entry) (s : Bytes) : Prop :=
  (∀ e, v = some e → e.key = k ∧ PlainKey k n) ∧
    ∃ full m, fullAnswer t v = some full ∧ m < full.length ∧ s = full.take m

/-- Reading an answer that is cut short fails, with the entry as it was, or with the fields of the
value, or with all of it. -/
theorem getClient_cut {now : Int64} {t : ResponseType} {w q s k : Bytes} {v : Option Entry}
    {g : GetSlot} (hq : 32 ≤ q.length) (hw : w.length = q.length) (hg : g.e.key = k)
    (hc : CutAnswer t q.length k v s) :
    ∃ g' rest, getClient now w q (s.length + 1) s g = (.failed, g', rest) ∧
      (g' = g ∨ ∃ e, v = some e ∧ (g' = g.header (shown t now e) ∨ g' = g.value (shown t now e))) := by
  obtain ⟨hv, full, m, hf, hm, rfl⟩ := hc
  have hend : ∀ m, m < (strEnd ++ crlf).length → ∀ c ∈ (strEnd ++ crlf).take m, c ≠ chNl := by
    decide
  cases v with
  | none =>
    injection hf with hf
    subst hf
    refine ⟨g, _, getClient_noLine (hend m hm), .inl rfl⟩
  | some e =>
    obtain ⟨hke, hplain⟩ := hv e rfl
    rw [← hke] at hplain
    have hgk : g.e.key = e.key := by rw [hg, hke]
    simp only [fullAnswer] at hf
    cases hb : response t e with
    | none => simp [hb] at hf
    | some b =>
      simp only [hb, Option.map_some, Option.some.injEq] at hf
      subst hf
      have hb' := hb
      simp only [response] at hb'
      split at hb'
      case isFalse => exact absurd hb' (by simp)
      case isTrue hsz =>
      have hb' := Option.some.inj hb'
      obtain ⟨l, hl, hnl⟩ := responseLine_split (t := t) hplain
      have hblen : b.length = (responseLine t e).length + (e.size.toNat + 2) := by
        rw [← hb']; simp [crlf]; omega
      by_cases h1 : m < (responseLine t e).length
      · -- the line is not complete
        refine ⟨g, _, getClient_noLine (fun c hc => ?_), .inl rfl⟩
        have hpre : ((b ++ (strEnd ++ crlf)).take m) = (l ++ [chCr]).take m := by
          rw [← hb', hl]
          have hlen : (responseLine t e).length = l.length + 2 := by rw [hl]; simp [crlf]
          rw [show l ++ crlf ++ e.data.take e.size.toNat ++ crlf ++ (strEnd ++ crlf) =
            (l ++ [chCr]) ++ ([chNl] ++ (e.data.take e.size.toNat ++ (crlf ++ (strEnd ++ crlf)))) by
              simp [crlf]]
          rw [List.take_append_of_le_length (by simp; omega)]
        rw [hpre] at hc
        have := List.mem_of_mem_take hc
        rw [List.mem_append] at this
        rcases this with h | h
        · exact hnl c h
        · rw [List.mem_singleton] at h
          rw [h]; decide
      · by_cases h2 : m < b.length
        · have hs : (b ++ (strEnd ++ crlf)).take m = responseLine t e ++
              (e.data.take e.size.toNat ++ crlf).take (m - (responseLine t e).length) := by
            rw [List.take_append_of_le_length (by omega), ← hb', List.append_assoc,
              List.take_append, List.take_of_length_le (by omega)]
          have := getClient_header (now := now) (n := ((b ++ (strEnd ++ crlf)).take m).length)
            (d := (e.data.take e.size.toNat ++ crlf).take (m - (responseLine t e).length))
            hplain hq hw hb hgk (by rw [List.length_take]; simp [crlf]; omega)
          rw [← hs] at this
          exact ⟨_, _, this, .inr ⟨e, rfl, .inl rfl⟩⟩
        · have hs : (b ++ (strEnd ++ crlf)).take m = b ++ (strEnd ++ crlf).take (m - b.length) := by
            rw [List.take_append, List.take_of_length_le (by omega)]
          have hfull := readAnswer_value (now := now) (q := q) (q' := w)
            (more := (strEnd ++ crlf).take (m - b.length)) hplain hq hw hb
          rw [← hs] at hfull
          have h3 := getClient_value (n := ((b ++ (strEnd ++ crlf)).take m).length) hfull hgk
          rw [getClient_noLine (hend _ (by rw [List.length_append] at hm; omega))] at h3
          exact ⟨_, _, h3, .inr ⟨e, rfl, .inr rfl⟩⟩

/-- A complete answer is read to its end. -/
theorem getClient_full {now : Int64} {t : ResponseType} {w q more b : Bytes} {e : Entry} {g : GetSlot}
    (n : Nat) (hq : 32 ≤ q.length) (hw : w.length = q.length) (hg : g.e.key = e.key)
    (hk : PlainKey e.key q.length) (hb : response t e = some b) :
    getClient now w q (n + 2) (b ++ (strEnd ++ crlf ++ more)) g =
      (.done, g.value (shown t now e), more) := by
  have hfull := readAnswer_value (now := now) (q := q) (q' := w) (more := strEnd ++ crlf ++ more) hk hq
    hw hb
  rw [getClient_value hfull hg, getClient_end]
  rfl

end Flare
