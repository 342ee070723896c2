import Verif.Lemmas.ZkLock

/-! C68: the lock that index servers share through ZooKeeper. -/
namespace Flare

section
variable {V O : Type}

/-- Two clients never have the lock at the same time, however many there are, however their steps mix,
and however old the states of the directory are that they are shown.  What is missing: the session of a
client that has the lock must not expire, and no more than 2^31 numbers are used. -/
theorem C68_one_holder_partial (app : O → V → V) (d : V) (evs : List (ZkEv O))
    (small : (zkRun app { data := d } evs).next ≤ 2 ^ 31) (live : HoldersLive app { data := d } evs)
    (a b : Nat) (ha : (zkRun app { data := d } evs).holds a)
    (hb : (zkRun app { data := d } evs).holds b) : a = b := by
  obtain ⟨n, x, ha⟩ := ha
  obtain ⟨m, y, hb⟩ := hb
  exact (zkInv_run app d evs small live).one ha hb

/-- Under the same conditions, and if no answer to a write gets lost, no operation is lost: the stored
node map is what the operations reported as done make of the first one, one after the other, and each of
them was worked out from the result of the one before it. -/
theorem C68_no_lost_update_partial (app : O → V → V) (d : V) (evs : List (ZkEv O))
    (small : (zkRun app { data := d } evs).next ≤ 2 ^ 31) (live : HoldersLive app { data := d } evs)
    (answered : ∀ c o, .storeLost c o ∉ evs) :
    (zkRun app { data := d } evs).data =
      (zkRun app { data := d } evs).acked.foldl (fun x o => app o x) d :=
  (zkData_run app d evs small live answered).data

/-- The lock goes round in the order of the numbers: whoever has it later has a later number. -/
theorem C68_in_order_partial (app : O → V → V) (d : V) (pre post : List (ZkEv O))
    (small : (zkRun app { data := d } (pre ++ post)).next ≤ 2 ^ 31)
    (live : HoldersLive app { data := d } (pre ++ post)) (a b n m : Nat) (x y : Option V)
    (ha : ((zkRun app { data := d } pre).clients a).phase = .holding n x)
    (hb : ((zkRun app { data := d } (pre ++ post)).clients b).phase = .holding m y) : n ≤ m := by
  have small' : (zkRun app { data := d } pre).next ≤ 2 ^ 31 := by
    rw [zkRun_append] at small
    exact Nat.le_trans (next_le_run app _ post) small
  have I := zkInv_run app d pre small' live.prefix
  have J := zkInv_run app d _ small live
  have mem := J.own b m (by rw [hb]; rfl) (J.hold b m y hb).1
  rw [zkRun_append] at mem
  exact now_run app _ post n (Nat.le_of_lt (I.since a n (by rw [ha]; rfl)).1) (I.hold a n x ha).2 _ mem

/-- Nobody is kept from the lock: the client whose node has the smallest number has the lock, or gets it
when it looks at the directory as it is now, which the time-out in `wait_for_ownership` makes it do. -/
theorem C68_next_gets_it_partial (app : O → V → V) (d : V) (evs : List (ZkEv O))
    (small : (zkRun app { data := d } evs).next ≤ 2 ^ 31) (live : HoldersLive app { data := d } evs)
    (me : ZNode) (hm : me ∈ (zkRun app { data := d } evs).now)
    (first : ∀ n ∈ (zkRun app { data := d } evs).now, me.num ≤ n.num) :
    (zkRun app { data := d } evs).holds me.who ∨
    (zkRun app { data := d } (evs ++ [.check me.who ((zkRun app { data := d } evs).views.length - 1)
      ((zkRun app { data := d } evs).views.length - 1)])).holds me.who := by
  have I := zkInv_run app d evs small live
  rw [zkRun_snoc]
  generalize zkRun app { data := d } evs = s at small hm first I ⊢
  obtain ⟨hp, ha⟩ := I.node me hm
  cases e : (s.clients me.who).phase with
  | out => rw [e] at hp; cases hp
  | holding n x => exact .inl ⟨n, x, e⟩
  | waiting n w =>
    right
    rw [e] at hp
    cases hp
    have hs := (I.since me.who me.num (by rw [e]; rfl)).2
    have hv : s.views[s.views.length - 1]? = some s.now := by
      unfold ZkSys.now
      rw [List.getLast?_eq_getElem?]
      have : s.views.length - 1 < s.views.length := by omega
      rw [List.getElem?_eq_getElem this]; rfl
    have low : ∀ a ∈ s.now, a.num < 2 ^ 31 := fun a h =>
      Nat.lt_of_lt_of_le (I.low _ (now_mem_views I.nonempty) a h) small
    have hfl : zkFloor me s.now = none := by
      apply zkFloor_none_of
      intro a h
      rw [before_small (low a h) (low me hm)]
      exact decide_eq_false (by have := first a h; omega)
    have hfr : zkFront s.now = some me := by
      apply zkFront_least hm low
      intro a h hne
      rcases Nat.lt_or_ge me.num a.num with hlt | hge
      · exact hlt
      · exact absurd (I.uniq a h me hm (Nat.le_antisymm hge (first a h))) hne
    refine ⟨me.num, none, ?_⟩
    simp only [zkStep, e, ha, hv, if_pos (show (s.clients me.who).since ≤ s.views.length - 1 ∧
      s.views.length - 1 ≤ s.views.length - 1 from ⟨by omega, Nat.le_refl _⟩)]
    rw [setClient_same]
    show zkLook ⟨me.num, me.who⟩ s.now s.now w = _
    unfold zkLook
    rw [show (⟨me.num, me.who⟩ : ZNode) = me from rfl, hfl]
    simp only [hfr, if_pos]

/-- A client that looks at the directory as it is now, and does not get the lock, watches the node just
before its own: the removal of exactly this node can make it the first, so it is woken when its turn comes. -/
theorem C68_watches_next_partial (app : O → V → V) (d : V) (evs : List (ZkEv O))
    (small : (zkRun app { data := d } evs).next ≤ 2 ^ 31) (live : HoldersLive app { data := d } evs)
    (me : ZNode) (hm : me ∈ (zkRun app { data := d } evs).now) (w : Option ZNode)
    (hw : ((zkRun app { data := d } evs).clients me.who).phase = .waiting me.num w) :
    let s := zkRun app { data := d } evs
    let t := zkRun app { data := d } (evs ++ [.check me.who (s.views.length - 1) (s.views.length - 1)])
    t.holds me.who ∨ ∃ p ∈ s.now, (t.clients me.who).phase = .waiting me.num (some p) ∧ p.num < me.num ∧
      ∀ q ∈ s.now, q.num < me.num → q.num ≤ p.num := by
  have I := zkInv_run app d evs small live
  simp only [zkRun_snoc]
  generalize zkRun app { data := d } evs = s at small hm hw I ⊢
  obtain ⟨-, ha⟩ := I.node me hm
  have hs := (I.since me.who me.num (by rw [hw]; rfl)).2
  have hv : s.views[s.views.length - 1]? = some s.now := by
    unfold ZkSys.now
    rw [List.getLast?_eq_getElem?]
    have : s.views.length - 1 < s.views.length := by omega
    rw [List.getElem?_eq_getElem this]; rfl
  have low : ∀ a ∈ s.now, a.num < 2 ^ 31 := fun a h =>
    Nat.lt_of_lt_of_le (I.low _ (now_mem_views I.nonempty) a h) small
  have hstep : ((zkStep app s (.check me.who (s.views.length - 1) (s.views.length - 1))).clients me.who).phase =
      zkLook me s.now s.now w := by
    simp only [zkStep, hw, ha, hv, if_pos (show (s.clients me.who).since ≤ s.views.length - 1 ∧
      s.views.length - 1 ≤ s.views.length - 1 from ⟨by omega, Nat.le_refl _⟩)]
    rw [setClient_same]
  cases e : zkFloor me s.now with
  | none =>
    left
    have hfr : zkFront s.now = some me := by
      apply zkFront_least hm low
      intro a h hne
      have hb := zkFloor_none e a h
      rw [before_small (low a h) (low me hm), decide_eq_false_iff_not] at hb
      rcases Nat.lt_or_ge me.num a.num with hlt | hge
      · exact hlt
      · exact absurd (I.uniq a h me hm (Nat.le_antisymm hge (Nat.not_lt.1 hb))) hne
    refine ⟨me.num, none, ?_⟩
    rw [hstep]
    simp only [zkLook, e, hfr, if_pos]
  | some p =>
    right
    obtain ⟨h1, h2⟩ := zkFloor_some e
    refine ⟨p, h1, ?_, ?_, fun q hq hqm => ?_⟩
    · rw [hstep]
      simp only [zkLook, e, if_pos h1]
    · rw [before_small (low p h1) (low me hm)] at h2
      exact of_decide_eq_true h2
    · have := zkFloor_last low (low me hm) e q hq hqm
      exact this

/-- A number is printed at least ten characters wide, and the sign is one of them: what is left for the
comparison has ten digits, or nine if the number is negative and small. -/
theorem C68_printed_width (n : Nat) :
    (zkSuffix n).length = if -(10 ^ 9 : Int) < zkSeq n ∧ zkSeq n < 0 then 9 else 10 := by
  have hd : ∀ k n, (digitsN k n).length = k := by
    intro k
    induction k with
    | zero => intro n; rfl
    | succ k ih => intro n; simp [digitsN, ih]
  unfold zkSuffix
  by_cases h : 0 ≤ zkSeq n
  · rw [if_pos h, if_neg (by omega), hd]
  · rw [if_neg h]
    by_cases h2 : (-zkSeq n).toNat < 10 ^ 9
    · rw [if_pos h2, if_pos (by omega), hd]
    · rw [if_neg h2, if_neg (by omega), hd]

/-- Names sort like their numbers below 2^31. -/
theorem C68_names (a b : ZNode) (ha : a.num < 2 ^ 31) (hb : b.num < 2 ^ 31) :
    a.before b = true ↔ a.num < b.num := by
  rw [before_small ha hb]; exact decide_eq_true_iff

/-- The directory of one client's turn: its node, its look, its load. -/
def zkTurn (c i : Nat) : List (ZkEv O) := [.create c 0, .check c i i, .load c]

private theorem before_00 : (⟨0, 0⟩ : ZNode).before ⟨0, 0⟩ = false := by decide +kernel
private theorem before_11 : (⟨1, 1⟩ : ZNode).before ⟨1, 1⟩ = false := by decide +kernel
private theorem before_01 : (⟨0, 0⟩ : ZNode).before ⟨1, 1⟩ = true := by decide +kernel
private theorem before_10 : (⟨1, 1⟩ : ZNode).before ⟨0, 0⟩ = false := by decide +kernel

/-- Defect: a client that has the lock and whose session expires goes on as if it still had it.
Another one gets the lock, both are told that their operation succeeded, and the second one's is lost,
whatever the two operations are. -/
theorem C68_expired_holder (app : O → V → V) (d : V) (o p : O) :
    let s := zkRun app { data := d } (zkTurn 0 1 ++ [.expire 0] ++ zkTurn 1 3)
    let t := zkRun app s [.store 1 p, .store 0 o]
    s.holds 0 ∧ s.holds 1 ∧ t.acked = [p, o] ∧ t.data = app o d := by
  simp [zkRun, zkTurn, zkStep, ZkSys.setClient, ZkSys.change, ZkSys.now, zkLook, zkFloor, zkFront, zkDrop,
    ZkSys.holds, before_00, before_01, before_10, before_11]

/-- Defect: a write whose answer was lost is given up, the lock is passed on, and the write may still be
carried out afterwards.  The operation of the next client, which was told that it succeeded, is lost. -/
theorem C68_late_write (app : O → V → V) (d : V) (o p : O) :
    let t := zkRun app { data := d } (zkTurn 0 1 ++ [.storeLost 0 o, .release 0] ++ zkTurn 1 3 ++
      [.store 1 p, .release 1, .land 0])
    t.acked = [p] ∧ t.data = app o d := by
  simp [zkRun, zkTurn, zkStep, ZkSys.setClient, ZkSys.change, ZkSys.now, zkLook, zkFloor, zkFront, zkDrop,
    ZkSys.holds, before_00, before_01, before_10, before_11]

/-- Defect: if the node to watch is gone by the time the watch is set, the client neither watches nor
looks again.  The lock is free, it is first in line, and no event will wake it; only the time-out does. -/
theorem C68_no_watch (app : O → V → V) (d : V) :
    let s := zkRun app { data := d } (zkTurn 0 1 ++ [.create 1 0, .release 0, .check 1 2 3])
    s.now = [⟨1, 1⟩] ∧ (∀ c, ¬ s.holds c) ∧ (s.clients 1).phase = .waiting 1 none := by
  simp [zkRun, zkTurn, zkStep, ZkSys.setClient, ZkSys.change, ZkSys.now, zkLook, zkFloor, zkFront, zkDrop,
    ZkSys.holds, before_00, before_01, before_10, before_11]
  intro c n x
  by_cases h1 : c = 1
  · simp [h1]
  · by_cases h0 : c = 0
    · simp [h0]
    · simp [h1, h0]

/-- Defect: beyond 2^31 the numbers are negative, and the sign is lost when names are compared.  A client
then gets the lock while another has it. -/
theorem C68_numbers_wrap (app : O → V → V) (d : V) :
    let s := zkRun app { data := d }
      [.create 0 (2 ^ 31 - 1), .check 0 1 1, .create 1 0, .create 2 0, .create 3 0, .check 3 4 4]
    s.holds 0 ∧ s.holds 3 := by
  obtain ⟨N, eN⟩ : ∃ N : Nat, N = 2 ^ 31 - 1 := ⟨_, rfl⟩
  have h0 : (⟨N, 0⟩ : ZNode).before ⟨N, 0⟩ = false := by rw [eN]; decide +kernel
  have f0 : (⟨N, 0⟩ : ZNode).before ⟨N + 1 + 1 + 1, 3⟩ = false := by rw [eN]; decide +kernel
  have f1 : (⟨N + 1, 1⟩ : ZNode).before ⟨N + 1 + 1 + 1, 3⟩ = false := by rw [eN]; decide +kernel
  have f2 : (⟨N + 1 + 1, 2⟩ : ZNode).before ⟨N + 1 + 1 + 1, 3⟩ = false := by rw [eN]; decide +kernel
  have f3 : (⟨N + 1 + 1 + 1, 3⟩ : ZNode).before ⟨N + 1 + 1 + 1, 3⟩ = false := by rw [eN]; decide +kernel
  have g0 : (⟨N + 1 + 1 + 1, 3⟩ : ZNode).before ⟨N, 0⟩ = true := by rw [eN]; decide +kernel
  have g1 : (⟨N + 1 + 1 + 1, 3⟩ : ZNode).before ⟨N + 1, 1⟩ = true := by rw [eN]; decide +kernel
  have g2 : (⟨N + 1 + 1 + 1, 3⟩ : ZNode).before ⟨N + 1 + 1, 2⟩ = true := by rw [eN]; decide +kernel
  rw [← eN]
  clear eN
  simp [zkRun, zkStep, ZkSys.setClient, ZkSys.change, ZkSys.now, zkLook, zkFloor, zkFront, ZkSys.holds, h0, f0,
    f1, f2, f3, g0, g1, g2]

end

/-! ### Examples -/

/-- Three clients; operations append a number. -/
def exZk : List (ZkEv Nat) :=
  [.create 0 0, .create 1 3, .check 1 2 2, .check 0 1 1, .load 0, .create 2 0, .store 0 5, .check 2 3 3,
    .release 0, .check 2 3 4, .check 1 4 4, .load 1, .store 1 7, .release 1, .check 2 5 5, .load 2,
    .store 2 9]

def exApp : Nat → List Nat → List Nat := fun o l => l ++ [o]

example : (zkRun exApp { data := [] } exZk).data = [5, 7, 9] ∧
    (zkRun exApp { data := [] } exZk).acked = [5, 7, 9] := ⟨rfl, rfl⟩

example : (zkRun exApp { data := [] } exZk).holds 2 := ⟨5, none, rfl⟩

example : HoldersLive exApp { data := [] } exZk :=
  holdersLive_of_no_expire fun c h => by simp [exZk] at h

example : (zkRun exApp { data := [] } exZk).next = 6 := rfl

example : zkSuffix 2147483650 = [2, 1, 4, 7, 4, 8, 3, 6, 4, 6] := by decide +kernel

example : ((⟨2147483650, 3⟩ : ZNode).before ⟨2147483647, 0⟩) = true := by decide +kernel

end Flare
