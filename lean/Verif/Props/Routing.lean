import Verif.Lemmas.Routing
import Verif.Props.Cluster

/-! Properties of routing: C29, C30, C31, C32. -/
namespace Flare

section
variable {near : NodeKey → Bool} {N : Nat} {v : View} {kr : Resolver} {h : Int} {p : Nat}

theorem ledBy_main (g : GoodView near N v) (p : Int) (near' : NodeKey → Bool) (k : NodeKey) :
    (mkPart near' (activeMasters v.nodes p) (slavesOf v.nodes p)).ledBy k = true ↔ Leads v.nodes p k := by
  rw [Part.ledBy, decide_eq_true_iff]
  exact g.leads_head p k

theorem ledBy_prep (g : GoodView near N v) (near' : NodeKey → Bool) (k : NodeKey) :
    (mkPart near' (preparingMasters v.nodes N) (slavesOf v.nodes N)).ledBy k = true ↔ Prepares v.nodes k := by
  rw [Part.ledBy, decide_eq_true_iff]
  exact g.prepares_head k

/-- When a node executes a write itself. -/
def Executes (kr : Resolver) (N : Nat) (nodes : NodeMap) (p : Int) (me : NodeKey) (r : RReq) : Prop :=
  Leads nodes p me ∨ (r.proxied = true ∧ (Follows nodes p me ∨
    (Moving kr N nodes r.hash ∧ (Prepares nodes me ∨ Follows nodes N me))))

theorem preWrite_eq (g : GoodView near N v) (r : RReq) (hr : Routable kr N r.hash)
    (hp : resolve kr r.hash N = some p) (hlt : p < N) (me : NodeKey) (room : NodeKey → Bool) :
    (Executes kr N v.nodes p me r → preWrite kr me v room r = .execute) ∧
    (¬ Executes kr N v.nodes p me r → preWrite kr me v room r =
      match (activeMasters v.nodes p).head?.map (·.1) with
      | none => .errEnqueue
      | some k => if enqueueOk v room k then .forward k else .errEnqueue) := by
  have hd := g.determine_main hp hlt
  obtain ⟨p1, p0⟩ := g.determinePrep_eq hr (by omega)
  have b1 := ledBy_main g p near me
  have b2 := ledBy_prep g (fun _ => false) me
  have b3 := g.index_main p near me
  have b4 := g.index_prep (fun _ => false) me
  by_cases hm : Moving kr N v.nodes r.hash
  · have hq := p1 hm
    have hE : Executes kr N v.nodes p me r ↔
        ((mkPart near (activeMasters v.nodes p) (slavesOf v.nodes p)).ledBy me || (r.proxied &&
          (mkPart (fun _ => false) (preparingMasters v.nodes N) (slavesOf v.nodes N)).ledBy me)) = true ∨
        (r.proxied && ((mkPart near (activeMasters v.nodes p) (slavesOf v.nodes p)).index.contains me ||
          (mkPart (fun _ => false) (preparingMasters v.nodes N) (slavesOf v.nodes N)).index.contains me)) =
            true := by
      simp only [Bool.or_eq_true, Bool.and_eq_true, List.contains_iff_mem, b1, b2, b3, b4, Executes, hm, true_and]
      constructor
      · rintro (h | ⟨h, h' | h' | h'⟩) <;> simp [*]
      · rintro ((h | ⟨h, h'⟩) | ⟨h, (h' | h') | h' | h'⟩) <;> simp [*]
    simp only [preWrite, hd, hq, Option.any_some]
    rw [hE]
    constructor
    · rintro (h | h)
      · rw [if_pos h]
      · rw [if_pos h, ite_self]
    · intro h
      rw [not_or] at h
      rw [if_neg h.1, if_neg h.2]
      rfl
  · have hq := p0 hm
    have hE : Executes kr N v.nodes p me r ↔
        ((mkPart near (activeMasters v.nodes p) (slavesOf v.nodes p)).ledBy me || (r.proxied && false)) = true ∨
        (r.proxied && ((mkPart near (activeMasters v.nodes p) (slavesOf v.nodes p)).index.contains me ||
          false)) = true := by
      simp only [Bool.or_eq_true, Bool.and_eq_true, List.contains_iff_mem, b1, b3, Executes, hm, false_and,
        or_false, Bool.false_eq_true, and_false]
      constructor
      · rintro (h | ⟨h, h'⟩) <;> simp [*]
      · rintro (h | ⟨h, h' | h'⟩) <;> simp [*]
    simp only [preWrite, hd, hq, Option.any_none]
    rw [hE]
    constructor
    · rintro (h | h)
      · rw [if_pos h]
      · rw [if_pos h, ite_self]
    · intro h
      rw [not_or] at h
      rw [if_neg h.1, if_neg h.2]
      rfl

/-- With a consistent map a node executes a write exactly if it is the active master of the key's partition,
or if the write was forwarded to it and it is a replica of the partition, or belongs to the partition in
preparation the key is going to.  Every other write goes to the partition's active master, and is refused if
there is none or its queue is full. -/
theorem C29_decision (g : GoodView near N v) (r : RReq) (hr : Routable kr N r.hash)
    (hp : resolve kr r.hash N = some p) (hlt : p < N) (me : NodeKey) (room : NodeKey → Bool) :
    (preWrite kr me v room r = .execute ↔ Executes kr N v.nodes p me r) ∧
    (∀ k, preWrite kr me v room r = .forward k ↔
      ¬ Executes kr N v.nodes p me r ∧ Leads v.nodes p k ∧ room k = true) ∧
    (preWrite kr me v room r = .errEnqueue ↔
      ¬ Executes kr N v.nodes p me r ∧ ∀ k, Leads v.nodes p k → room k = false) := by
  obtain ⟨h1, h2⟩ := preWrite_eq g r hr hp hlt me room
  by_cases hE : Executes kr N v.nodes p me r
  · simp [h1 hE, hE]
  · rw [h2 hE]
    cases hl : (activeMasters v.nodes p).head?.map (·.1) with
    | none =>
      have hno : ∀ k, ¬ Leads v.nodes p k := fun k hk => by
        rw [(g.leads_head p k).2 hk] at hl; simp at hl
      simp [hE, hno]
    | some k =>
      have hk := (g.leads_head p k).1 hl
      have huniq : ∀ k', Leads v.nodes p k' ↔ k' = k := by
        intro k'
        constructor
        · intro h'
          rw [(g.leads_head p k').2 h'] at hl
          simpa using hl
        · rintro rfl; exact hk
      have he : enqueueOk v room k = room k := by
        obtain ⟨n, hn, -⟩ := hk
        simp [enqueueOk, hn]
      simp only [he, hE, not_false_eq_true, true_and, huniq, forall_eq]
      cases hrk : room k
      · simp
        try exact hrk
      · simp
        intro k'
        constructor
        · rintro rfl; exact ⟨rfl, hrk⟩
        · rintro ⟨rfl, -⟩; rfl

/-- Without any partition a write is refused. -/
theorem C29_no_partition (g : GoodView near 0 v) (r : RReq) (me : NodeKey) (room : NodeKey → Bool) :
    preWrite kr me v room r = .errPartition := by
  have hl := g.npm_length
  simp [preWrite, determine, hl]

/-! ### C32 -/

theorem filter_enqueueOk {room : NodeKey → Bool} {l : List NodeKey} (h : ∀ k ∈ l, (mfind v.nodes k).isSome = true) :
    l.filter (enqueueOk v room) = l.filter room := by
  apply List.filter_congr
  intro k hk
  simp [enqueueOk, h k hk]

theorem follows_known {nodes : NodeMap} {q : Int} (hs : Sorted nodes) :
    ∀ k ∈ (slavesOf nodes q).map (·.1), (mfind nodes k).isSome = true := by
  intro k hk
  obtain ⟨n, hn, -⟩ := (mem_slaveKeys hs q k).1 hk
  simp [hn]

theorem leads_not_prepares {nodes : NodeMap} {q : Int} {k : NodeKey} (h : Leads nodes q k) : ¬ Prepares nodes k := by
  obtain ⟨n, h1, h2, h3, h4⟩ := h
  rintro ⟨m, g1, g2, g3⟩
  rw [h1] at g1
  simp only [Option.some.injEq] at g1
  subst g1
  rw [h3] at g3
  simp at g3

/-- The nodes a node sends copies of an executed write to.  The active master of the key's partition sends one
to every slave of the partition that is not down and to the master in preparation if the
key is moving to its partition; the latter sends what was forwarded to it to its own slaves; everyone else, and
a node the write has passed twice already, sends nothing.  Only nodes whose queue is full are left out. -/
theorem C32_copies (g : GoodView near N v) (r : RReq) (hr : Routable kr N r.hash)
    (hp : resolve kr r.hash N = some p) (hlt : p < N) (me : NodeKey) (room : NodeKey → Bool) :
    ∃ l : List NodeKey, postWrite kr me v room r = some (l.filter room) ∧ l.Nodup ∧ ∀ k, k ∈ l ↔ r.path.count me < 2 ∧
      ((Leads v.nodes p me ∧ (Follows v.nodes p k ∨ (Moving kr N v.nodes r.hash ∧ Prepares v.nodes k))) ∨
       (r.proxied = true ∧ Moving kr N v.nodes r.hash ∧ Prepares v.nodes me ∧ Follows v.nodes N k)) := by
  have hd := g.determine_main hp hlt
  obtain ⟨p1, p0⟩ := g.determinePrep_eq hr (by omega)
  have b1 := ledBy_main g p near me
  have b2 := ledBy_prep g (fun _ => false) me
  by_cases hc : 2 ≤ r.path.count me
  · refine ⟨[], ?_, List.nodup_nil, ?_⟩
    · by_cases hm : Moving kr N v.nodes r.hash
      · simp only [postWrite, hd, p1 hm, hc, if_true, ite_self, List.filter_nil]
      · simp only [postWrite, hd, p0 hm, hc, if_true, ite_self, List.filter_nil]
    · intro k
      simp only [List.not_mem_nil, false_iff, not_and_or]
      left; omega
  · have hc' : r.path.count me < 2 := by omega
    by_cases hm : Moving kr N v.nodes r.hash
    · by_cases hL : Leads v.nodes p me
      · have hnp := leads_not_prepares hL
        have hb1 := b1.2 hL
        have hb2 : (mkPart (fun _ => false) (preparingMasters v.nodes N) (slavesOf v.nodes N)).ledBy me = false := by
          rw [Bool.eq_false_iff]; exact fun hx => hnp (b2.1 hx)
        obtain ⟨q, hq⟩ := hm.1
        have hq' := (g.prepares_head q).2 hq
        have huniq : ∀ k, Prepares v.nodes k ↔ k = q := by
          intro k
          constructor
          · intro hk
            have := (g.prepares_head k).2 hk
            rw [hq'] at this
            simpa using this.symm
          · rintro rfl; exact hq
        refine ⟨(slavesOf v.nodes p).map (·.1) ++ [q], ?_, ?_, ?_⟩
        · simp only [postWrite, hd, p1 hm, hc, if_false, hb1, Bool.true_or, if_true, Option.any_some, hb2,
            Bool.false_eq_true]
          have : (mkPart (fun _ => false) (preparingMasters v.nodes N) (slavesOf v.nodes N)).master.toList = [q] := by
            simp only [mkPart, hq', Option.toList_some]
          rw [this, filter_enqueueOk]
          · rfl
          · intro k hk
            rcases List.mem_append.1 hk with hk | hk
            · exact follows_known g.sorted k hk
            · obtain ⟨n, hn, -⟩ := hq
              rw [List.mem_singleton.1 hk, hn]; rfl
        · refine List.nodup_append.2 ⟨slaveKeys_nodup g.sorted p, by simp, ?_⟩
          intro a ha b hb hab
          subst hab
          rw [List.mem_singleton.1 hb] at ha
          obtain ⟨n, h1, h2, -⟩ := (mem_slaveKeys g.sorted p q).1 ha
          obtain ⟨m, g1, g2, -⟩ := hq
          rw [h1] at g1
          simp only [Option.some.injEq] at g1
          subst g1
          rw [h2] at g2; simp at g2
        · intro k
          simp only [List.mem_append, mem_slaveKeys g.sorted, List.mem_singleton, hc', hL, hm, hnp, true_and,
            false_and, and_false, or_false, huniq]
      · have hb1 : (mkPart near (activeMasters v.nodes p) (slavesOf v.nodes p)).ledBy me = false := by
          rw [Bool.eq_false_iff]; exact fun hx => hL (b1.1 hx)
        by_cases hP : r.proxied = true ∧ Prepares v.nodes me
        · have hb2 := b2.2 hP.2
          refine ⟨(slavesOf v.nodes N).map (·.1), ?_, slaveKeys_nodup g.sorted N, ?_⟩
          · simp only [postWrite, hd, p1 hm, hc, if_false, hb1, Bool.false_or, if_true, Option.any_some, hb2,
              Bool.false_eq_true, hP.1, Bool.true_and, List.append_nil]
            rw [filter_enqueueOk]
            · rfl
            · exact follows_known g.sorted
          · intro k
            simp only [mem_slaveKeys g.sorted, hc', hL, hm, hP, true_and, false_and, false_or]
        · refine ⟨[], ?_, List.nodup_nil, ?_⟩
          · have : (r.proxied && (mkPart (fun _ => false) (preparingMasters v.nodes N)
                (slavesOf v.nodes N)).ledBy me) = false := by
              rw [Bool.eq_false_iff]
              intro hx
              rw [Bool.and_eq_true, b2] at hx
              exact hP hx
            simp only [postWrite, hd, p1 hm, hb1, Bool.false_or, Option.any_some, this, Bool.false_eq_true,
              if_false, List.filter_nil]
          · intro k
            simp only [List.not_mem_nil, hL, hm, false_and, false_or, true_and, false_iff]
            rintro ⟨-, h1, h2, -⟩
            exact hP ⟨h1, h2⟩
    · by_cases hL : Leads v.nodes p me
      · have hb1 := b1.2 hL
        refine ⟨(slavesOf v.nodes p).map (·.1), ?_, slaveKeys_nodup g.sorted p, ?_⟩
        · simp only [postWrite, hd, p0 hm, hc, if_false, hb1, Bool.true_or, if_true, List.append_nil]
          rw [filter_enqueueOk]
          · rfl
          · exact follows_known g.sorted
        · intro k
          simp only [mem_slaveKeys g.sorted, hc', hL, hm, true_and, false_and, and_false, or_false]
      · refine ⟨[], ?_, List.nodup_nil, ?_⟩
        · have hb1 : (mkPart near (activeMasters v.nodes p) (slavesOf v.nodes p)).ledBy me = false := by
            rw [Bool.eq_false_iff]; exact fun hx => hL (b1.1 hx)
          simp only [postWrite, hd, p0 hm, hb1, Bool.false_or, Option.any_none, Bool.and_false,
            Bool.false_eq_true, if_false, List.filter_nil]
        · intro k
          simp [hL, hm]

theorem handle_eq (g : GoodView near N v) (r : RReq) (hr : Routable kr N r.hash)
    (hp : resolve kr r.hash N = some p) (hlt : p < N) (me : NodeKey) (room : NodeKey → Bool) (changed : Bool) :
    ∃ d, handle kr me v room changed r = some d ∧
      (Executes kr N v.nodes p me r → d.executed = true ∧ (changed = false → d.sends = []) ∧
        (changed = true → postWrite kr me v room r = some d.sends)) ∧
      (¬ Executes kr N v.nodes p me r → d.executed = false ∧
        ((∃ m, Leads v.nodes p m ∧ room m = true ∧ d.sends = [m]) ∨
         ((∀ m, Leads v.nodes p m → room m = false) ∧ d.sends = []))) := by
  obtain ⟨h1, h2, h3⟩ := C29_decision g r hr hp hlt me room
  by_cases hE : Executes kr N v.nodes p me r
  · have he := h1.2 hE
    obtain ⟨l, hl, -⟩ := C32_copies g r hr hp hlt me room
    cases changed
    · exact ⟨⟨true, []⟩, by simp [handle, he], fun _ => by simp, fun h => absurd hE h⟩
    · exact ⟨⟨true, l.filter room⟩, by simp [handle, he, hl], fun _ => by simp [hl], fun h => absurd hE h⟩
  · by_cases hm : ∃ m, Leads v.nodes p m ∧ room m = true
    · obtain ⟨m, hm1, hm2⟩ := hm
      have he := (h2 m).2 ⟨hE, hm1, hm2⟩
      exact ⟨⟨false, [m]⟩, by simp [handle, he], fun h => absurd h hE, fun _ => ⟨rfl, .inl ⟨m, hm1, hm2, rfl⟩⟩⟩
    · have hno : ∀ m, Leads v.nodes p m → room m = false := fun m hl => by
        cases hx : room m with
        | false => rfl
        | true => exact absurd ⟨m, hl, hx⟩ hm
      have he := h3.2 ⟨hE, hno⟩
      exact ⟨⟨false, []⟩, by simp [handle, he], fun h => absurd h hE, fun _ => ⟨rfl, .inr ⟨hno, rfl⟩⟩⟩

theorem follows_not_leads {nodes : NodeMap} {q q' : Int} {k : NodeKey} (h : Follows nodes q k) :
    ¬ Leads nodes q' k ∧ ¬ Prepares nodes k := by
  obtain ⟨n, h1, h2, h3, h4⟩ := h
  constructor <;>
  · rintro ⟨m, g1, g2, -⟩
    rw [h1] at g1
    simp only [Option.some.injEq] at g1
    subst g1
    rw [h2] at g2; simp at g2

theorem follows_same {nodes : NodeMap} {q q' : Int} {k : NodeKey} (h : Follows nodes q k) (h' : Follows nodes q' k) :
    q = q' := by
  obtain ⟨n, h1, -, -, h4⟩ := h
  obtain ⟨m, g1, -, -, g4⟩ := h'
  rw [h1] at g1
  simp only [Option.some.injEq] at g1
  subst g1
  rw [← h4, g4]

end

section
variable {near : NodeKey → NodeKey → Bool} {N : Nat} {nodes : NodeMap} {views : NodeKey → View} {kr : Resolver}
  {h : Int} {p : Nat}

/-- One step of `spread` at a node that executes. -/
theorem Agree.step (a : Agree near N nodes views) (r : RReq) (hr : Routable kr N r.hash)
    (hp : resolve kr r.hash N = some p) (hlt : p < N) (me : NodeKey) (hE : Executes kr N nodes p me r) :
    ∃ l : List NodeKey, l.Nodup ∧ (∀ k, k ∈ l ↔ r.path.count me < 2 ∧
      ((Leads nodes p me ∧ (Follows nodes p k ∨ (Moving kr N nodes r.hash ∧ Prepares nodes k))) ∨
       (r.proxied = true ∧ Moving kr N nodes r.hash ∧ Prepares nodes me ∧ Follows nodes N k))) ∧
      ∀ f, spread kr views (f + 1) me r = me :: l.flatMap fun x => spread kr views f x (r.next me) := by
  obtain ⟨l, h1, h2, h3⟩ := C32_copies (a.good me) r hr hp hlt me (fun _ => true)
  obtain ⟨d, g1, g2, -⟩ := handle_eq (a.good me) r hr hp hlt me (fun _ => true) true
  rw [a.same me] at h3 g2
  obtain ⟨e1, -, e3⟩ := g2 hE
  have e3 := e3 rfl
  rw [h1] at e3
  simp only [List.filter_true, Option.some.injEq] at e3
  refine ⟨l, h2, h3, fun f => ?_⟩
  simp only [spread, g1, e1, if_true, ← e3, List.singleton_append]

theorem flatMap_self {l : List NodeKey} {f : NodeKey → List NodeKey} (h : ∀ k ∈ l, f k = [k]) : l.flatMap f = l := by
  induction l with
  | nil => rfl
  | cons a l ih =>
    rw [List.flatMap_cons, h a (by simp), ih fun k hk => h k (by simp [hk])]
    rfl

theorem Agree.slave (a : Agree near N nodes views) (r : RReq) (hr : Routable kr N r.hash)
    (hp : resolve kr r.hash N = some p) (hlt : p < N) (me : NodeKey) (hx : r.proxied = true)
    (hf : Follows nodes p me ∨ (Moving kr N nodes r.hash ∧ Follows nodes N me)) (f : Nat) :
    spread kr views (f + 1) me r = [me] := by
  have hE : Executes kr N nodes p me r := by
    rcases hf with hf | ⟨hm, hf⟩
    · exact .inr ⟨hx, .inl hf⟩
    · exact .inr ⟨hx, .inr ⟨hm, .inr hf⟩⟩
  obtain ⟨l, -, h2, h3⟩ := a.step r hr hp hlt me hE
  have hn : ¬ Leads nodes p me ∧ ¬ Prepares nodes me := by
    rcases hf with hf | ⟨-, hf⟩ <;> exact follows_not_leads hf
  have : l = [] := by
    rw [List.eq_nil_iff_forall_not_mem]
    intro k hk
    have := (h2 k).1 hk
    simp [hn] at this
  rw [h3, this]; rfl

theorem Agree.prep (a : Agree near N nodes views) (r : RReq) (hr : Routable kr N r.hash)
    (hp : resolve kr r.hash N = some p) (hlt : p < N) (me : NodeKey) (hx : r.proxied = true)
    (hm : Moving kr N nodes r.hash) (hq : Prepares nodes me) (hc : r.path.count me < 2) :
    ∃ l : List NodeKey, l.Nodup ∧ (∀ k, k ∈ l ↔ Follows nodes N k) ∧
      ∀ f, spread kr views (f + 2) me r = me :: l := by
  obtain ⟨l, h1, h2, h3⟩ := a.step r hr hp hlt me (.inr ⟨hx, .inr ⟨hm, .inl hq⟩⟩)
  have hn : ¬ Leads nodes p me := fun hl => leads_not_prepares hl hq
  simp only [hc, hn, false_and, false_or, hx, hm, hq, true_and] at h2
  refine ⟨l, h1, h2, fun f => ?_⟩
  rw [h3, flatMap_self]
  intro k hk
  exact a.slave (r.next me) hr hp hlt k rfl (.inr ⟨hm, (h2 k).1 hk⟩) f

theorem Agree.lead (a : Agree near N nodes views) (r : RReq) (hr : Routable kr N r.hash)
    (hp : resolve kr r.hash N = some p) (hlt : p < N) (me : NodeKey) (hl : Leads nodes p me)
    (hc : ∀ k, r.path.count k < 2) (hme : ∀ k, Prepares nodes k → (r.path ++ [me]).count k < 2) :
    ∃ l : List NodeKey, l.Nodup ∧ (∀ k, k ∈ l ↔ Leads nodes p k ∨ Follows nodes p k ∨
        (Moving kr N nodes r.hash ∧ (Prepares nodes k ∨ Follows nodes N k))) ∧
      ∀ f, spread kr views (f + 3) me r = l := by
  have hd := (a.good me).determine_main hp hlt
  obtain ⟨l, h1, h2, h3⟩ := a.step r hr hp hlt me (.inl hl)
  have hnp : ¬ Prepares nodes me := leads_not_prepares hl
  simp only [hc me, hl, true_and, hnp, false_and, and_false, or_false] at h2
  have huniq : ∀ k, Leads nodes p k ↔ k = me := by
    intro k
    constructor
    · intro hk
      have e1 := ((a.good me).leads_head p k).2 (by rw [a.same]; exact hk)
      have e2 := ((a.good me).leads_head p me).2 (by rw [a.same]; exact hl)
      rw [e1] at e2
      simpa using e2
    · rintro rfl; exact hl
  have key : ∃ L : List NodeKey, L.Nodup ∧ me ∉ L ∧ (∀ k, k ∈ L ↔ Follows nodes p k ∨
        (Moving kr N nodes r.hash ∧ (Prepares nodes k ∨ Follows nodes N k))) ∧
      ∀ f, (l.flatMap fun x => spread kr views (f + 2) x (r.next me)) = L := by
    by_cases hm : Moving kr N nodes r.hash
    · simp only [hm, true_and] at h2 ⊢
      obtain ⟨q, hq⟩ := hm.1
      have hqu : ∀ k, Prepares nodes k ↔ k = q := by
        intro k
        constructor
        · intro hk
          have e1 := ((a.good me).prepares_head k).2 (by rw [a.same]; exact hk)
          have e2 := ((a.good me).prepares_head q).2 (by rw [a.same]; exact hq)
          rw [e1] at e2
          simpa using e2
        · rintro rfl; exact hq
      obtain ⟨L2, g1, g2, g3⟩ := a.prep (r.next me) hr hp hlt q rfl hm hq (hme q hq)
      have hql : q ∈ l := (h2 q).2 (.inr hq)
      obtain ⟨l1, l2, rfl⟩ := List.append_of_mem hql
      have hnq : q ∉ l1 ∧ q ∉ l2 := by
        have h1' := List.nodup_append.1 h1
        constructor
        · intro hx
          exact h1'.2.2 q hx q (by simp) rfl
        · exact (List.nodup_cons.1 h1'.2.1).1
      have hf : ∀ k, k ∈ l1 ∨ k ∈ l2 ↔ Follows nodes p k := by
        intro k
        have := h2 k
        simp only [List.mem_append, List.mem_cons, hqu] at this
        constructor
        · intro hx
          rcases this.1 (by rcases hx with hx | hx <;> simp [hx]) with hy | rfl
          · exact hy
          · rcases hx with hx | hx
            · exact absurd hx hnq.1
            · exact absurd hx hnq.2
        · intro hx
          rcases this.2 (.inl hx) with hy | rfl | hy
          · exact .inl hy
          · exact absurd hq (follows_not_leads (q' := 0) hx).2
          · exact .inr hy
      have hs : ∀ k, Follows nodes p k → ∀ f, spread kr views (f + 2) k (r.next me) = [k] := fun k hk f =>
        a.slave (r.next me) hr hp hlt k rfl (.inl hk) (f + 1)
      refine ⟨l1 ++ (q :: L2 ++ l2), ?_, ?_, ?_, ?_⟩
      · have h1' := List.nodup_append.1 h1
        have hl2 := (List.nodup_cons.1 h1'.2.1).2
        have hd2 : ∀ k, k ∈ L2 → k ∉ l1 ∧ k ∉ l2 := by
          intro k hk
          have hk' := (g2 k).1 hk
          constructor <;>
          · intro hx
            have := follows_same hk' ((hf k).1 (by simp [hx]))
            omega
        rw [List.nodup_append]
        refine ⟨h1'.1, ?_, ?_⟩
        · rw [List.cons_append, List.nodup_cons, List.nodup_append]
          refine ⟨?_, g1, hl2, ?_⟩
          · rw [List.mem_append]
            rintro (hx | hx)
            · exact (follows_not_leads (q' := 0) ((g2 q).1 hx)).2 hq
            · exact hnq.2 hx
          · intro x hx y hy hxy
            subst hxy
            exact (hd2 x hx).2 hy
        · intro x hx y hy hxy
          subst hxy
          rcases List.mem_append.1 hy with hy | hy
          · rcases List.mem_cons.1 hy with rfl | hy
            · exact hnq.1 hx
            · exact (hd2 x hy).1 hx
          · exact h1'.2.2 x hx x (by simp [hy]) rfl
      · intro hx
        simp only [List.mem_append, List.mem_cons] at hx
        rcases hx with hx | (rfl | hx) | hx
        · exact (follows_not_leads ((hf me).1 (.inl hx))).1 hl
        · exact hnp hq
        · exact (follows_not_leads ((g2 me).1 hx)).1 hl
        · exact (follows_not_leads ((hf me).1 (.inr hx))).1 hl
      · intro k
        rw [hqu, ← g2, ← hf]
        simp only [List.mem_append, List.mem_cons]
        constructor
        · rintro (hx | (hx | hx) | hx) <;> simp [hx]
        · rintro ((hx | hx) | hx | hx) <;> simp [hx]
      · intro f
        rw [List.flatMap_append, List.flatMap_cons, g3, flatMap_self, flatMap_self]
        · intro k hk; exact hs k ((hf k).1 (.inr hk)) f
        · intro k hk; exact hs k ((hf k).1 (.inl hk)) f
    · simp only [hm, false_and, or_false] at h2 ⊢
      refine ⟨l, h1, ?_, h2, ?_⟩
      · intro hx
        exact (follows_not_leads ((h2 me).1 hx)).1 hl
      · intro f
        apply flatMap_self
        intro k hk
        exact a.slave (r.next me) hr hp hlt k rfl (.inl ((h2 k).1 hk)) (f + 1)
  obtain ⟨L, k1, k2, k3, k4⟩ := key
  refine ⟨me :: L, List.nodup_cons.2 ⟨k2, k1⟩, ?_, ?_⟩
  · intro k
    rw [List.mem_cons, k3, huniq]
  · intro f
    rw [h3, k4]

/-- While all nodes agree on a consistent map, and whichever node a client sends a write to, every node that
should have the key executes the write exactly once: the active master of the partition, all its slaves that
are not down, and, if the key is moving to a partition in preparation, its master and slaves; nobody else
executes it.  Without an active master nobody does. -/
theorem C32_exactly_once (a : Agree near N nodes views) (hr : Routable kr N h)
    (hp : resolve kr h N = some p) (hlt : p < N) (start : NodeKey) (f : Nat) :
    ((∃ m, Leads nodes p m) → (spread kr views (f + 4) start { hash := h }).Nodup ∧
      ∀ k, k ∈ spread kr views (f + 4) start { hash := h } ↔ Leads nodes p k ∨ Follows nodes p k ∨
        (Moving kr N nodes h ∧ (Prepares nodes k ∨ Follows nodes N k))) ∧
    ((¬ ∃ m, Leads nodes p m) → spread kr views (f + 4) start { hash := h } = []) := by
  by_cases hE : Executes kr N nodes p start { hash := h }
  · have hl : Leads nodes p start := by
      rcases hE with hE | ⟨hE, -⟩
      · exact hE
      · simp at hE
    refine ⟨fun _ => ?_, fun hno => absurd ⟨_, hl⟩ hno⟩
    obtain ⟨l, h1, h2, h3⟩ := a.lead { hash := h } hr hp hlt start hl (by simp)
      (by intro k _; simp only [List.nil_append, List.count_singleton]; split <;> omega)
    rw [h3 (f + 1)]
    exact ⟨h1, h2⟩
  · obtain ⟨d, g1, -, g2⟩ := handle_eq (a.good start) { hash := h } hr hp hlt start (fun _ => true) true
    rw [a.same start] at g2
    obtain ⟨e1, e2⟩ := g2 hE
    have hsp : spread kr views (f + 4) start { hash := h } =
        d.sends.flatMap fun x => spread kr views (f + 3) x (RReq.next { hash := h } start) := by
      rw [spread, g1]; simp [e1]
    constructor
    · rintro ⟨m, hm⟩
      rcases e2 with ⟨m', hm', -, e2⟩ | ⟨hno, -⟩
      · rw [hsp, e2]
        simp only [List.flatMap_cons, List.flatMap_nil, List.append_nil]
        have hsl : ¬ Leads nodes p start := fun hx => hE (.inl hx)
        obtain ⟨l, h1, h2, h3⟩ := a.lead (RReq.next { hash := h } start) hr hp hlt m' hm'
          (by intro k; simp only [RReq.next, List.nil_append, List.count_singleton]; split <;> omega)
          (by
            intro k hk
            have hne : m' ≠ k := fun hx => leads_not_prepares hm' (hx ▸ hk)
            simp only [RReq.next, List.nil_append, List.count_append, List.count_singleton, beq_iff_eq, hne,
              if_false]
            split <;> omega)
        rw [h3 f]
        exact ⟨h1, h2⟩
      · have := hno m hm; simp at this
    · intro hno
      rcases e2 with ⟨m', hm', -, e2⟩ | ⟨-, e2⟩
      · exact absurd ⟨_, hm'⟩ hno
      · rw [hsp, e2]; rfl

/-! ### C31 -/

/-- While all nodes agree on a consistent map no request, whatever path it carries, goes further than three
hops: to the master, to the master in preparation and to its slaves. -/
theorem C31_bounded_partial (a : Agree near N nodes views) (r : RReq) (hr : Routable kr N r.hash)
    (hp : resolve kr r.hash N = some p) (hlt : p < N) (n : Nat) (k : NodeKey) (hh : Hops kr views n k r) :
    n ≤ 3 := by
  -- one hop from an executing node
  have exec : ∀ (r : RReq), Routable kr N r.hash → resolve kr r.hash N = some p → ∀ n k,
      Executes kr N nodes p k r → Hops kr views (n + 1) k r → ∃ x, Hops kr views n x (r.next k) ∧
      ((Leads nodes p k ∧ (Follows nodes p x ∨ (Moving kr N nodes r.hash ∧ Prepares nodes x))) ∨
       (r.proxied = true ∧ Moving kr N nodes r.hash ∧ Prepares nodes k ∧ Follows nodes N x)) := by
    intro r hr hp n k hE hh
    obtain ⟨room, changed, d, x, h1, h2, h3⟩ := hh
    obtain ⟨d', g1, g2, -⟩ := handle_eq (a.good k) r hr hp hlt k room changed
    rw [h1] at g1
    simp only [Option.some.injEq] at g1
    subst g1
    rw [a.same] at g2
    obtain ⟨-, e1, e2⟩ := g2 hE
    cases changed with
    | false => rw [e1 rfl] at h2; simp at h2
    | true =>
      obtain ⟨l, c1, -, c2⟩ := C32_copies (a.good k) r hr hp hlt k room
      rw [e2 rfl, Option.some.injEq] at c1
      rw [c1] at h2
      rw [a.same] at c2
      exact ⟨x, h3, ((c2 x).1 (List.mem_filter.1 h2).1).2⟩
  have slave : ∀ (r : RReq), Routable kr N r.hash → resolve kr r.hash N = some p → r.proxied = true → ∀ n k,
      (Follows nodes p k ∨ (Moving kr N nodes r.hash ∧ Follows nodes N k)) → Hops kr views n k r → n ≤ 0 := by
    intro r hr hp hx n k hf hh
    cases n with
    | zero => omega
    | succ n =>
      have hE : Executes kr N nodes p k r := by
        rcases hf with hf | ⟨hm, hf⟩
        · exact .inr ⟨hx, .inl hf⟩
        · exact .inr ⟨hx, .inr ⟨hm, .inr hf⟩⟩
      have hn : ¬ Leads nodes p k ∧ ¬ Prepares nodes k := by
        rcases hf with hf | ⟨-, hf⟩ <;> exact follows_not_leads hf
      obtain ⟨x, -, h1⟩ := exec r hr hp n k hE hh
      simp [hn] at h1
  have prep : ∀ (r : RReq), Routable kr N r.hash → resolve kr r.hash N = some p → r.proxied = true →
      Moving kr N nodes r.hash → ∀ n k, Prepares nodes k → Hops kr views n k r → n ≤ 1 := by
    intro r hr hp hx hm n k hq hh
    cases n with
    | zero => omega
    | succ n =>
      obtain ⟨x, h2, h1⟩ := exec r hr hp n k (.inr ⟨hx, .inr ⟨hm, .inl hq⟩⟩) hh
      have hn : ¬ Leads nodes p k := fun hl => leads_not_prepares hl hq
      simp only [hn, false_and, false_or] at h1
      have := slave (r.next k) hr hp rfl n x (.inr ⟨hm, h1.2.2.2⟩) h2
      omega
  have lead : ∀ (r : RReq), Routable kr N r.hash → resolve kr r.hash N = some p → ∀ n k, Leads nodes p k →
      Hops kr views n k r → n ≤ 2 := by
    intro r hr hp n k hl hh
    cases n with
    | zero => omega
    | succ n =>
      obtain ⟨x, h2, h1⟩ := exec r hr hp n k (.inl hl) hh
      rcases h1 with ⟨-, hf | ⟨hm, hq⟩⟩ | ⟨-, -, hq, -⟩
      · have := slave (r.next k) hr hp rfl n x (.inl hf) h2
        omega
      · have := prep (r.next k) hr hp rfl hm n x hq h2
        omega
      · exact absurd hq (leads_not_prepares hl)
  by_cases hE : Executes kr N nodes p k r
  · rcases hE with hl | ⟨hx, hf | ⟨hm, hq | hf⟩⟩
    · have := lead r hr hp n k hl hh; omega
    · have := slave r hr hp hx n k (.inl hf) hh; omega
    · have := prep r hr hp hx hm n k hq hh; omega
    · have := slave r hr hp hx n k (.inr ⟨hm, hf⟩) hh; omega
  · cases n with
    | zero => omega
    | succ n =>
      obtain ⟨room, changed, d, x, h1, h2, h3⟩ := hh
      obtain ⟨d', g1, -, g2⟩ := handle_eq (a.good k) r hr hp hlt k room changed
      rw [h1] at g1
      simp only [Option.some.injEq] at g1
      subst g1
      rw [a.same] at g2
      rcases (g2 hE).2 with ⟨m, hm, -, hs⟩ | ⟨-, hs⟩
      · rw [hs, List.mem_singleton] at h2
        subst h2
        have := lead (r.next k) hr hp n x hm h3
        omega
      · rw [hs] at h2; simp at h2

/-- Whatever the nodes believe, a request carries exactly the nodes it has passed, and no node on its way
executes it and sends it on more than twice.  So only forwarding without executing can go on for ever. -/
theorem C31_copies_bounded {l : List (NodeKey × Bool)} {k : NodeKey} {r : RReq} (t : Trip kr l k r) :
    r.path = l.map (·.1) ∧ (l ≠ [] → r.proxied = true) ∧ ∀ x, l.count (x, true) ≤ 2 := by
  induction t with
  | client k h => simp
  | @hop l k y r v room changed d t hh hy ih =>
    obtain ⟨i1, -, i3⟩ := ih
    refine ⟨by simp [RReq.next, i1], by simp [RReq.next], fun x => ?_⟩
    rw [List.count_append, List.count_singleton]
    by_cases hx : (k, d.executed) = (x, true)
    · simp only [Prod.mk.injEq] at hx
      obtain ⟨rfl, hx⟩ := hx
      have hc : r.path.count k < 2 := by
        apply Classical.byContradiction
        intro hc
        have hc : 2 ≤ r.path.count k := by omega
        have hex : preWrite kr k v room r = .execute := by
          cases hpw : preWrite kr k v room r with
          | execute => rfl
          | ub => simp [handle, hpw] at hh
          | forward m => simp [handle, hpw] at hh; simp [← hh] at hx
          | errPartition => simp [handle, hpw] at hh; simp [← hh] at hx
          | errEnqueue => simp [handle, hpw] at hh; simp [← hh] at hx
        have : d.sends = [] := by
          simp only [handle, hex] at hh
          cases changed with
          | false => simp at hh; simp [← hh]
          | true =>
            cases hpo : postWrite kr k v room r with
            | none => simp [hpo] at hh
            | some l' =>
              have : l' = [] := by
                simp only [postWrite, hc, if_true, ite_self] at hpo
                split at hpo
                · simpa using hpo.symm
                · simp at hpo
                · split at hpo
                  · simp at hpo
                  · simpa using hpo.symm
              simp [hpo, this] at hh
              simp [← hh]
        rw [this] at hy; simp at hy
      have hle : l.count (k, true) ≤ (l.map (·.1)).count k := List.count_le_count_map (f := (·.1)) (x := (k, true))
      rw [← i1] at hle
      have : (if ((k, d.executed) == (k, true)) = true then 1 else 0) ≤ 1 := by split <;> omega
      omega
    · have := i3 x
      rw [if_neg (by simpa using hx)]
      omega

/-- How the nodes come to agree: an index server with an orderly history sends its maps; if every node has
received the last of them, whatever else it received and in whatever order, all nodes agree on the consistent
map that is stored. -/
theorem C29_agreement (near : NodeKey → NodeKey → Bool) (as : List IAct) (ho : Orderly true .init as)
    (ms : NodeKey → List NodeMsg) (last : NodeMsg) (hl : (sent .init as).getLast? = some last)
    (hms : ∀ k, last ∈ ms k ∧ ∀ m ∈ ms k, m ∈ sent .init as) :
    ∃ N nodes tt, Agree near N nodes (fun k => receiveAll (near k) k .init (ms k)) ∧
      (ixRun .init as).saved = some (last.version, nodes, tt) := by
  have hgood := sent_good as true 0 .init init_inv ho
  have hlast : last ∈ sent .init as := List.mem_of_getLast? hl
  obtain ⟨N, hs, hg⟩ := hgood last hlast
  have hall : ∀ k, (receiveAll (near k) k .init (ms k)).nodes = last.nodes := by
    intro k
    have hmax : ∀ m' ∈ ms k, m'.version ≤ last.version := by
      intro m' hm'
      have h1 := (C24_messages as).1
      have hm' := (hms k).2 m' hm'
      obtain ⟨i, hi, rfl⟩ := List.mem_iff_getElem.1 hm'
      rw [List.getLast?_eq_getElem?] at hl
      obtain ⟨hj, hl⟩ := List.getElem?_eq_some_iff.1 hl
      rcases Nat.lt_or_ge i ((sent .init as).length - 1) with h | h
      · have := List.pairwise_iff_getElem.1 h1 i _ hi hj h
        rw [hl] at this
        omega
      · have : i = (sent .init as).length - 1 := by omega
        subst this
        rw [hl]
    have := (C24_newest_wins as (near k) k (ms k) (hms k).2 last (hms k).1 hmax).2.1
    rw [this, build_sorted _ hs]
  obtain ⟨tt, htt⟩ := (C24_messages as).2 last hl
  refine ⟨N, last.nodes, tt, ⟨?_, hall⟩, htt⟩
  intro k
  obtain ⟨M, hM⟩ := receiveAll_good (near k) k (ms k) (fun m hm => hgood m ((hms k).2 m hm)) .init (.inl rfl)
    (.inl (List.ne_nil_of_mem (hms k).1))
  have : M = N := by
    have e1 := hM.good
    rw [hall k] at e1
    have h1 := e1.exists_range hs
    have h2 := hg.exists_range hs
    have h3 := (h1 M).symm.trans (h2 M)
    have h4 := (h1 N).symm.trans (h2 N)
    omega
  subst this
  exact hM

end

/-- C29.  Nothing is sent to an unknown node: reads and writes are forwarded, and copies sent, only to nodes of
the node map whose queue takes the request. -/
theorem C29_known_target (kr : Resolver) (me : NodeKey) (v : View) (room : NodeKey → Bool) :
    (∀ r dst, preWrite kr me v room r = .forward dst → (mfind v.nodes dst).isSome = true ∧ room dst = true) ∧
    (∀ rnd h dst, preRead kr me v room rnd h = .forward dst →
      (mfind v.nodes dst).isSome = true ∧ room dst = true) ∧
    (∀ r l, postWrite kr me v room r = some l →
      ∀ n ∈ l, (mfind v.nodes n).isSome = true ∧ room n = true) := by
  have hok : ∀ n, enqueueOk v room n = true → (mfind v.nodes n).isSome = true ∧ room n = true := by
    intro n h
    simpa only [enqueueOk, Bool.and_eq_true] using h
  refine ⟨fun r dst h => ?_, fun rnd x dst h => ?_, fun r l h n hn => ?_⟩
  · simp only [preWrite] at h
    repeat' split at h
    all_goals first | (cases h; done) | skip
    rename_i hk
    rw [Pre.forward.injEq] at h
    exact hok _ (h ▸ hk)
  · simp only [preRead] at h
    repeat' split at h
    all_goals first | (cases h; done) | skip
    all_goals
      rename_i hk
      rw [PreRead.forward.injEq] at h
      exact hok _ (h ▸ hk)
  · simp only [postWrite] at h
    repeat' split at h
    all_goals first | (cases h; done) | skip
    all_goals
      rw [Option.some.injEq] at h
      subst h
      first
        | (cases hn; done)
        | exact hok _ (List.mem_filter.1 hn).2

/-! ### C30 -/

section
variable {near : NodeKey → Bool} {N : Nat} {v : View} {kr : Resolver} {h : Int} {p : Nat}

theorem mem_copies {b : Int} {k x : NodeKey} : x ∈ copies b k ↔ x = k ∧ 0 < b := by
  simp only [copies, List.mem_replicate]
  rw [and_comm, show (b.toNat ≠ 0 ↔ 0 < b) by omega]

theorem count_copies (b : Int) (k x : NodeKey) : (copies b k).count x = if k = x then b.toNat else 0 := by
  simp [copies, List.count_replicate]

theorem count_flatMap_copies {β : Type} (f : β → Int) (x : NodeKey) : ∀ (l : List (NodeKey × β)),
    (l.map (·.1)).Nodup → (l.flatMap fun e => copies (f e.2) e.1).count x =
      ((mfind l x).map fun e => (f e).toNat).getD 0 := by
  intro l
  induction l with
  | nil => intro _; rfl
  | cons e l ih =>
    intro hn
    obtain ⟨k, b⟩ := e
    simp only [List.map_cons, List.nodup_cons] at hn
    rw [List.flatMap_cons, List.count_append, count_copies, ih hn.2]
    simp only [mfind]
    by_cases hk : k = x
    · subst hk
      have : mfind l k = none := (mfind_none_iff l k).2 hn.1
      simp [this]
    · simp [hk]

theorem activeMasters_nodup {nodes : NodeMap} (hs : Sorted nodes) (p : Int) :
    ((activeMasters nodes p).map (·.1)).Nodup := by
  have hn : (nodes.map (·.1)).Nodup := List.Pairwise.imp (fun h => Nat.ne_of_lt h) hs
  exact List.Nodup.sublist (List.filter_sublist.map _) hn

theorem activeMasters_sorted {nodes : NodeMap} (hs : Sorted nodes) (p : Int) : Sorted (activeMasters nodes p) :=
  List.Pairwise.sublist (List.filter_sublist.map _) hs

theorem slavesOf_sorted {nodes : NodeMap} (hs : Sorted nodes) (p : Int) : Sorted (slavesOf nodes p) := by
  have : (slavesOf nodes p).map (·.1) =
      (nodes.filter fun e => e.2.role = .slave && e.2.state ≠ .down && e.2.partition = p).map (·.1) := by
    simp only [slavesOf, List.map_map]; rfl
  rw [Sorted, this]
  exact List.Pairwise.sublist (List.filter_sublist.map _) hs

/-- The read list of a partition contains every active member as often as its balance says, and nobody else. -/
theorem count_balance (g : GoodView near N v) (p : Int) (near' : NodeKey → Bool) (x : NodeKey) :
    (∀ b, Holds v.nodes p x b →
      (mkPart near' (activeMasters v.nodes p) (slavesOf v.nodes p)).balance.count x = b.toNat) ∧
    ((¬ ∃ b, Holds v.nodes p x b) →
      (mkPart near' (activeMasters v.nodes p) (slavesOf v.nodes p)).balance.count x = 0) := by
  have e1 := count_flatMap_copies (fun n : Node => n.balance) x _ (activeMasters_nodup g.sorted p)
  have e2 := count_flatMap_copies (fun b : Int => b) x _ (slaveKeys_nodup g.sorted p)
  have hsum : (mkPart near' (activeMasters v.nodes p) (slavesOf v.nodes p)).balance.count x =
      ((mfind (activeMasters v.nodes p) x).map fun e => e.balance.toNat).getD 0 +
      ((mfind (slavesOf v.nodes p) x).map fun b => b.toNat).getD 0 := by
    refine Eq.trans ?_ (congrArg₂ (· + ·) e1 e2)
    rw [← List.count_append]; rfl
  have hm : ∀ n, mfind (activeMasters v.nodes p) x = some n ↔
      mfind v.nodes x = some n ∧ n.role = .master ∧ n.state = .active ∧ n.partition = p := by
    intro n
    rw [← mem_activeMasters g.sorted]
    exact (mem_iff_mfind _ (activeMasters_sorted g.sorted p) _ _).symm
  have hs : ∀ b, mfind (slavesOf v.nodes p) x = some b ↔ ∃ n, mfind v.nodes x = some n ∧ n.role = .slave ∧
      n.state ≠ .down ∧ n.partition = p ∧ b = if n.state = .active then n.balance else 0 := by
    intro b
    rw [← mem_slavesOf g.sorted]
    exact (mem_iff_mfind _ (slavesOf_sorted g.sorted p) _ _).symm
  constructor
  · rintro b ⟨n, h1, h2, h3, h4, rfl⟩
    rw [hsum]
    cases hr : n.role with
    | proxy => exact absurd hr h2
    | master =>
      have a1 := (hm n).2 ⟨h1, hr, h3, h4⟩
      have a2 : mfind (slavesOf v.nodes p) x = none := by
        cases hx : mfind (slavesOf v.nodes p) x with
        | none => rfl
        | some b =>
          obtain ⟨m, g1, g2, -⟩ := (hs b).1 hx
          rw [h1] at g1
          simp only [Option.some.injEq] at g1
          subst g1
          rw [hr] at g2; simp at g2
      simp [a1, a2]
    | slave =>
      have a1 := (hs n.balance).2 ⟨n, h1, hr, by simp [h3], h4, by simp [h3]⟩
      have a2 : mfind (activeMasters v.nodes p) x = none := by
        cases hx : mfind (activeMasters v.nodes p) x with
        | none => rfl
        | some m =>
          obtain ⟨g1, g2, -⟩ := (hm m).1 hx
          rw [h1] at g1
          simp only [Option.some.injEq] at g1
          subst g1
          rw [hr] at g2; simp at g2
      simp [a1, a2]
  · intro hno
    rw [hsum]
    have a1 : mfind (activeMasters v.nodes p) x = none := by
      cases hx : mfind (activeMasters v.nodes p) x with
      | none => rfl
      | some m =>
        obtain ⟨g1, g2, g3, g4⟩ := (hm m).1 hx
        exact absurd ⟨_, m, g1, by simp [g2], g3, g4, rfl⟩ hno
    rw [a1]
    cases hx : mfind (slavesOf v.nodes p) x with
    | none => rfl
    | some b =>
      obtain ⟨m, g1, g2, g3, g4, rfl⟩ := (hs b).1 hx
      by_cases ha : m.state = .active
      · exact absurd ⟨_, m, g1, by simp [g2], ha, g4, rfl⟩ hno
      · simp [ha]

theorem prior_eq (near' : NodeKey → Bool) (ms : NodeMap) (ss : List (NodeKey × Int)) :
    (mkPart near' ms ss).prior = (mkPart near' ms ss).balance.filter near' := by
  have h1 : ∀ {β : Type} (f : β → Int) (l : List (NodeKey × β)),
      ((l.filter fun e => near' e.1).flatMap fun e => copies (f e.2) e.1) =
      (l.flatMap fun e => copies (f e.2) e.1).filter near' := by
    intro β f l
    induction l with
    | nil => rfl
    | cons e l ih =>
      rw [List.flatMap_cons, List.filter_append, ← ih]
      cases hn : near' e.1
      · rw [List.filter_cons_of_neg (by simp [hn])]
        have : (copies (f e.2) e.1).filter near' = [] := by
          rw [List.filter_eq_nil_iff]
          intro x hx
          rw [(mem_copies.1 hx).1, hn]; simp
        rw [this]; rfl
      · rw [List.filter_cons_of_pos (by simp [hn]), List.flatMap_cons]
        have : (copies (f e.2) e.1).filter near' = copies (f e.2) e.1 := by
          rw [List.filter_eq_self]
          intro x hx
          rw [(mem_copies.1 hx).1, hn]
        rw [this]
  simp only [mkPart, List.filter_append]
  rw [h1 (fun n : Node => n.balance), h1 (fun b : Int => b)]

theorem mem_balance (g : GoodView near N v) (p : Int) (near' : NodeKey → Bool) (x : NodeKey) :
    x ∈ (mkPart near' (activeMasters v.nodes p) (slavesOf v.nodes p)).balance ↔ Readable v.nodes p x := by
  obtain ⟨h1, h2⟩ := count_balance g p near' x
  rw [← List.count_pos_iff]
  constructor
  · intro hc
    by_cases hb : ∃ b, Holds v.nodes p x b
    · obtain ⟨b, hb⟩ := hb
      have := h1 b hb
      exact ⟨b, by omega, hb⟩
    · have := h2 hb; omega
  · rintro ⟨b, hb, hh⟩
    have := h1 b hh
    omega

/-- A node answers a read itself. -/
def Serves (nodes : NodeMap) (p : Int) (me : NodeKey) : Prop :=
  Leads nodes p me ∨ ∃ n, mfind nodes me = some n ∧ n.role = .slave ∧ n.state = .active ∧ n.partition = p ∧ 0 < n.balance

theorem readable_serves {nodes : NodeMap} {q : Int} {k : NodeKey} (h : Readable nodes q k) : Serves nodes q k := by
  obtain ⟨b, hb, n, h1, h2, h3, h4, rfl⟩ := h
  cases hr : n.role with
  | proxy => exact absurd hr h2
  | master => exact .inl ⟨n, h1, hr, h3, h4⟩
  | slave => exact .inr ⟨n, h1, hr, h3, h4, hb⟩

/-- The nodes a read may be forwarded to: active members of the partition with a positive balance, from the
own network if it has any. -/
def Eligible (near : NodeKey → Bool) (nodes : NodeMap) (p : Int) (k : NodeKey) : Prop :=
  Readable nodes p k ∧ (near k = true ∨ ∀ x, near x = true → ¬ Readable nodes p x)

/-- `pre_proxy_read` with a consistent map, in terms of the list it chooses from. -/
theorem preRead_eq (g : GoodView near N v) (hp : resolve kr h N = some p) (hlt : p < N) (me : NodeKey)
    (room : NodeKey → Bool) :
    (Serves v.nodes p me → ∀ rnd, preRead kr me v room rnd h = .serve) ∧
    (¬ Serves v.nodes p me → ∃ l : List NodeKey, (∀ k, k ∈ l ↔ Eligible near v.nodes p k) ∧
      (∀ k, Eligible near v.nodes p k → ∀ b, Holds v.nodes p k b → l.count k = b.toNat) ∧
      ∀ rnd, preRead kr me v room rnd h = (match l[rnd % l.length]? with
        | none => .errPartition
        | some k => if room k then .forward k else .errEnqueue)) := by
  have hd := g.determine_main hp hlt
  have b1 := ledBy_main g p near me
  have hany : ((slavesOf v.nodes p).any fun s => 0 < s.2 && s.1 = me) = true ↔
      ∃ n, mfind v.nodes me = some n ∧ n.role = .slave ∧ n.state = .active ∧ n.partition = p ∧ 0 < n.balance := by
    simp only [List.any_eq_true, Bool.and_eq_true, decide_eq_true_eq, Prod.exists, mem_slavesOf g.sorted]
    constructor
    · rintro ⟨k, b, ⟨n, h1, h2, h3, h4, rfl⟩, h5, rfl⟩
      by_cases ha : n.state = .active
      · exact ⟨n, h1, h2, ha, h4, by simpa [ha] using h5⟩
      · simp [ha] at h5
    · rintro ⟨n, h1, h2, h3, h4, h5⟩
      exact ⟨me, n.balance, ⟨n, h1, h2, by simp [h3], h4, by simp [h3]⟩, h5, rfl⟩
  have hslaves : (mkPart near (activeMasters v.nodes p) (slavesOf v.nodes p)).slaves = slavesOf v.nodes p := rfl
  constructor
  · intro hS rnd
    simp only [preRead, hd]
    rcases hS with hS | hS
    · rw [if_pos (b1.2 hS)]
    · split
      · rfl
      · rw [if_pos (by rw [hslaves]; exact hany.2 hS)]
  · intro hS
    have hn1 : ¬ Leads v.nodes p me := fun hx => hS (.inl hx)
    have hn2 : ¬ ∃ n, mfind v.nodes me = some n ∧ n.role = .slave ∧ n.state = .active ∧ n.partition = p ∧
      0 < n.balance := fun hx => hS (.inr hx)
    generalize hq : mkPart near (activeMasters v.nodes p) (slavesOf v.nodes p) = q at hd b1 hslaves
    have hbal : ∀ x, x ∈ q.balance ↔ Readable v.nodes p x := fun x => by rw [← hq]; exact mem_balance g p near x
    have hpri : q.prior = q.balance.filter near := by rw [← hq]; exact prior_eq _ _ _
    have hcnt : ∀ k b, Holds v.nodes p k b → q.balance.count k = b.toNat := fun k b hb => by
      rw [← hq]; exact (count_balance g p near k).1 b hb
    have hknown : ∀ x, Readable v.nodes p x → enqueueOk v room x = room x := by
      rintro x ⟨b, -, n, hn, -⟩
      simp [enqueueOk, hn]
    refine ⟨if q.prior.length > 0 then q.prior else q.balance, ?_, ?_, ?_⟩
    · intro k
      split
      · rename_i hpos
        rw [hpri] at hpos ⊢
        obtain ⟨x, hx⟩ := List.exists_mem_of_length_pos hpos
        rw [List.mem_filter, hbal] at hx
        rw [List.mem_filter, hbal]
        constructor
        · rintro ⟨h1, h2⟩; exact ⟨h1, .inl h2⟩
        · rintro ⟨h1, h2 | h2⟩
          · exact ⟨h1, h2⟩
          · exact absurd hx.1 (h2 x hx.2)
      · rename_i hpos
        rw [hbal]
        constructor
        · intro h1
          refine ⟨h1, .inr fun x hx hr => ?_⟩
          have : x ∈ q.prior := by rw [hpri, List.mem_filter, hbal]; exact ⟨hr, hx⟩
          have := List.length_pos_of_mem this
          omega
        · exact fun h1 => h1.1
    · intro k hk b hb
      split
      · rename_i hpos
        rw [hpri] at hpos ⊢
        obtain ⟨x, hx⟩ := List.exists_mem_of_length_pos hpos
        rw [List.mem_filter, hbal] at hx
        have hnk : near k = true := by
          rcases hk.2 with h2 | h2
          · exact h2
          · exact absurd hx.1 (h2 x hx.2)
        rw [List.count_filter hnk]
        exact hcnt k b hb
      · exact hcnt k b hb
    · intro rnd
      simp only [preRead, hd]
      rw [if_neg (fun hx => hn1 (b1.1 hx)), if_neg (by rw [hslaves]; exact fun hx => hn2 (hany.1 hx))]
      by_cases h0 : q.balance.length = 0
      · have hb0 : q.balance = [] := List.length_eq_zero_iff.1 h0
        simp [hb0, hpri]
      · rw [if_neg h0]
        have hlen : 0 < (if q.prior.length > 0 then q.prior else q.balance).length := by split <;> omega
        have hlt := Nat.mod_lt rnd hlen
        rw [List.getElem?_eq_getElem hlt]
        dsimp only
        rw [hknown]
        rw [← hbal]
        have hsub : ∀ x ∈ (if q.prior.length > 0 then q.prior else q.balance), x ∈ q.balance := by
          intro x hx
          split at hx
          · rw [hpri] at hx
            exact (List.mem_filter.1 hx).1
          · exact hx
        exact hsub _ (List.getElem_mem hlt)

/-- With a consistent map a node answers a read itself exactly if it is the active master of the key's partition
or an active slave of it with a positive balance.  It forwards a read only to an active member of the partition
with a positive balance, from its own network if there is one; every such node is chosen for some random
number; and it refuses the read for want of a node only if there is none. -/
theorem C30_target (g : GoodView near N v) (hp : resolve kr h N = some p) (hlt : p < N) (me : NodeKey)
    (room : NodeKey → Bool) :
    (∀ rnd, preRead kr me v room rnd h = .serve ↔ Serves v.nodes p me) ∧
    (∀ k, (∃ rnd, preRead kr me v room rnd h = .forward k) ↔
      ¬ Serves v.nodes p me ∧ Eligible near v.nodes p k ∧ room k = true) ∧
    (∀ rnd, preRead kr me v room rnd h = .errPartition ↔
      ¬ Serves v.nodes p me ∧ ∀ k, ¬ Readable v.nodes p k) ∧
    ∀ rnd, preRead kr me v room rnd h ≠ .ub := by
  obtain ⟨h1, h2⟩ := preRead_eq (room := room) g hp hlt me
  by_cases hS : Serves v.nodes p me
  · have := h1 hS
    simp [this, hS]
  · obtain ⟨l, l1, l2, l3⟩ := h2 hS
    have hcase : ∀ rnd, (l = [] ∧ preRead kr me v room rnd h = .errPartition) ∨
        ∃ k ∈ l, preRead kr me v room rnd h = if room k then .forward k else .errEnqueue := by
      intro rnd
      rw [l3]
      cases hl : l with
      | nil => left; simp
      | cons a t =>
        right
        have hlt : rnd % (a :: t).length < (a :: t).length := Nat.mod_lt _ (by simp)
        refine ⟨(a :: t)[rnd % (a :: t).length], List.getElem_mem hlt, ?_⟩
        rw [List.getElem?_eq_getElem hlt]
    have hempty : l = [] ↔ ∀ k, ¬ Readable v.nodes p k := by
      constructor
      · rintro rfl k hk
        by_cases hn : ∃ x, near x = true ∧ Readable v.nodes p x
        · obtain ⟨x, hx, hr⟩ := hn
          have := (l1 x).2 ⟨hr, .inl hx⟩
          simp at this
        · have := (l1 k).2 ⟨hk, .inr fun x hx hr => hn ⟨x, hx, hr⟩⟩
          simp at this
      · intro hno
        rw [List.eq_nil_iff_forall_not_mem]
        intro k hk
        exact hno k ((l1 k).1 hk).1
    refine ⟨?_, ?_, ?_, ?_⟩
    · intro rnd
      simp only [hS, iff_false]
      rcases hcase rnd with ⟨-, h⟩ | ⟨k, -, h⟩
      · simp [h]
      · rw [h]; split <;> simp
    · intro k
      simp only [hS, not_false_eq_true, true_and]
      constructor
      · rintro ⟨rnd, hf⟩
        rcases hcase rnd with ⟨-, h⟩ | ⟨k', hk', h⟩
        · simp [h] at hf
        · rw [h] at hf
          split at hf
          · simp only [PreRead.forward.injEq] at hf
            subst hf
            exact ⟨(l1 _).1 hk', by assumption⟩
          · simp at hf
      · rintro ⟨he, hr⟩
        obtain ⟨i, hi, hik⟩ := List.mem_iff_getElem.1 ((l1 k).2 he)
        refine ⟨i, ?_⟩
        rw [l3, Nat.mod_eq_of_lt hi, List.getElem?_eq_getElem hi, hik]
        simp [hr]
    · intro rnd
      simp only [hS, not_false_eq_true, true_and, ← hempty]
      rcases hcase rnd with ⟨h0, h⟩ | ⟨k, hk, h⟩
      · simp [h, h0]
      · have : l ≠ [] := List.ne_nil_of_mem hk
        rw [h]
        simp only [this, iff_false]
        split <;> simp
    · intro rnd
      rcases hcase rnd with ⟨-, h⟩ | ⟨k, hk, h⟩
      · simp [h]
      · rw [h]; split <;> simp

/-- The reads a node forwards are shared out in proportion to the balances: there is a number of choices `n`
such that of any `n` consecutive random numbers each eligible node gets as many as its balance says. -/
theorem C30_proportional (g : GoodView near N v) (hp : resolve kr h N = some p) (hlt : p < N) (me : NodeKey)
    (hs : ¬ Serves v.nodes p me) : ∃ n : Nat,
    (∀ rnd, preRead kr me v (fun _ => true) rnd h = preRead kr me v (fun _ => true) (rnd % n) h) ∧
    ∀ k, Eligible near v.nodes p k → ∀ b, Holds v.nodes p k b →
      (((List.range n).countP fun rnd => preRead kr me v (fun _ => true) rnd h = .forward k) : Int) = b := by
  obtain ⟨-, h2⟩ := preRead_eq (room := fun _ => true) g hp hlt me
  obtain ⟨l, l1, l2, l3⟩ := h2 hs
  refine ⟨l.length, ?_, ?_⟩
  · intro rnd
    rw [l3, l3, Nat.mod_mod]
  · intro k hk b hb
    have hc := l2 k hk b hb
    have hb0 : 0 ≤ b := by
      obtain ⟨b', hb', hh⟩ := hk.1
      obtain ⟨n, e1, -, -, -, e5⟩ := hb
      obtain ⟨n', e1', -, -, -, e5'⟩ := hh
      rw [e1] at e1'
      simp only [Option.some.injEq] at e1'
      subst e1'
      omega
    have : ((List.range l.length).countP fun rnd => preRead kr me v (fun _ => true) rnd h = .forward k) = l.count k := by
      have hl : l = (List.range l.length).map fun i => l[i]?.getD 0 := by
        apply List.ext_getElem
        · simp
        · intro i h1 h2
          simp [List.getElem?_eq_getElem h1]
      conv_rhs => rw [hl]
      rw [List.count, List.countP_map]
      apply List.countP_congr
      intro i hi
      have hi := List.mem_range.1 hi
      rw [l3, Nat.mod_eq_of_lt hi]
      simp [List.getElem?_eq_getElem hi]
    rw [this, hc]
    omega

end

/-- While all nodes agree on a consistent map, a forwarded read is answered by the node it is sent to. -/
theorem C30_one_hop_partial {near : NodeKey → NodeKey → Bool} {N : Nat} {nodes : NodeMap} {views : NodeKey → View}
    {kr : Resolver} {h : Int} {p : Nat} (a : Agree near N nodes views) (hp : resolve kr h N = some p) (hlt : p < N)
    (me k : NodeKey) (room room' : NodeKey → Bool) (rnd rnd' : Nat)
    (hf : preRead kr me (views me) room rnd h = .forward k) :
    preRead kr k (views k) room' rnd' h = .serve := by
  have h1 := ((C30_target (room := room) (a.good me) hp hlt me).2.1 k).1 ⟨rnd, hf⟩
  rw [a.same] at h1
  refine ((C30_target (room := room') (a.good k) hp hlt k).1 rnd').2 ?_
  rw [a.same]
  exact readable_serves h1.2.1.1

/-! ### Witnesses -/

/-- Node 1 is the master of partition 0, fails, is replaced by node 2, and comes back as a proxy. -/
def loopHist : List IAct :=
  plain [.add 1, .add 2, .role 1 .master 1 0, .down 1, .role 2 .master 1 0, .up 1]

/-- Node 1 has received all maps of `loopHist`, node 2 only those before node 1 failed. -/
def loopView (k : NodeKey) : View :=
  receiveAll (fun _ => false) k .init ((sent .init loopHist).take (if k = 1 then 6 else 3))

theorem loop_step (r : RReq) (hr : r.hash = 0) (k : NodeKey) (hk : k = 1 ∨ k = 2) :
    handle ⟨8, 1, 16⟩ k (loopView k) (fun _ => true) true r = some ⟨false, [3 - k]⟩ := by
  have hpre : preWrite ⟨8, 1, 16⟩ k (loopView k) (fun _ => true) r = .forward (3 - k) := by
    have : preWrite ⟨8, 1, 16⟩ k (loopView k) (fun _ => true) r =
        preWrite ⟨8, 1, 16⟩ k (loopView k) (fun _ => true) ⟨0, r.proxied, []⟩ := by
      simp only [preWrite, hr]
    rw [this]
    rcases hk with rfl | rfl <;> cases r.proxied <;> decide +kernel
  simp [handle, hpre]

/-- Forwarding can go on for ever while node maps disagree, although the request carries its path: a history of
accepted commands after which nodes 1 and 2, of which node 2 has not heard the last three, send every write of
partition 0 to each other, whatever path it carries.  Reads, too. -/
theorem C31_loop : Orderly true .init loopHist ∧
    (∀ n path, Hops ⟨8, 1, 16⟩ loopView n 1 ⟨0, true, path⟩ ∧ Hops ⟨8, 1, 16⟩ loopView n 2 ⟨0, true, path⟩) ∧
    (∀ rnd, preRead ⟨8, 1, 16⟩ 1 (loopView 1) (fun _ => true) rnd 0 = .forward 2 ∧
      preRead ⟨8, 1, 16⟩ 2 (loopView 2) (fun _ => true) rnd 0 = .forward 1) := by
  refine ⟨by decide +kernel, ?_, ?_⟩
  · intro n
    induction n with
    | zero => intro path; exact ⟨trivial, trivial⟩
    | succ n ih =>
      intro path
      exact ⟨⟨_, _, _, 2, loop_step ⟨0, true, path⟩ rfl 1 (.inl rfl), by simp, (ih (path ++ [1])).2⟩,
        ⟨_, _, _, 1, loop_step ⟨0, true, path⟩ rfl 2 (.inr rfl), by simp, (ih (path ++ [2])).1⟩⟩
  · intro rnd
    have h1 : determine ⟨8, 1, 16⟩ (loopView 1) 0 false = .found ⟨some 2, 1, [], [2], [], [2]⟩ false := by decide +kernel
    have h2 : determine ⟨8, 1, 16⟩ (loopView 2) 0 false = .found ⟨some 1, 1, [], [1], [], [1]⟩ false := by decide +kernel
    have h3 : enqueueOk (loopView 1) (fun _ => true) 2 = true := by decide +kernel
    have h4 : enqueueOk (loopView 2) (fun _ => true) 1 = true := by decide +kernel
    simp [preRead, h1, h2, h3, h4, Part.ledBy, Nat.mod_one]

/-- Node 1 is the master of partition 0 and node 2 its slave; node 1 fails, node 2 takes over, and node 1 comes
back as its slave. -/
def staleHist : List IAct :=
  plain [.add 1, .add 2, .add 3, .role 1 .master 1 0, .role 2 .slave 1 0, .up 2, .down 1, .up 1, .role 1 .slave 1 0]

/-- Nodes 1 and 2 have received all maps of `staleHist`, node 3 only those before node 1 failed. -/
def staleView (k : NodeKey) : View :=
  receiveAll (fun _ => false) k .init ((sent .init staleHist).take (if k = 3 then 6 else 9))

/-- A client's write sent to a node with an older map is lost: node 3 forwards it to the former master 1, which
is a slave by now, takes the forwarded write for one from its master, executes it and sends it to nobody.  The
master never sees the write, and the client is told that it was stored. -/
theorem C29_stale_map_loses_write : Orderly true .init staleHist ∧
    handle ⟨8, 1, 16⟩ 3 (staleView 3) (fun _ => true) true { hash := 0 } = some ⟨false, [1]⟩ ∧
    handle ⟨8, 1, 16⟩ 1 (staleView 1) (fun _ => true) true ⟨0, true, [3]⟩ = some ⟨true, []⟩ ∧
    (∀ f, spread ⟨8, 1, 16⟩ staleView (f + 2) 3 { hash := 0 } = [1]) ∧
    Leads (staleView 1).nodes 0 2 ∧ Leads (staleView 2).nodes 0 2 := by
  have h1 : handle ⟨8, 1, 16⟩ 3 (staleView 3) (fun _ => true) true { hash := 0 } = some ⟨false, [1]⟩ := by
    decide +kernel
  have h2 : handle ⟨8, 1, 16⟩ 1 (staleView 1) (fun _ => true) true ⟨0, true, [3]⟩ = some ⟨true, []⟩ := by
    decide +kernel
  refine ⟨by decide +kernel, h1, h2, ?_, ?_, ?_⟩
  · intro f
    rw [spread, h1]
    simp only [Bool.false_eq_true, if_false, List.nil_append, List.flatMap_cons, List.flatMap_nil, List.append_nil]
    rw [spread, show RReq.next { hash := 0 } 3 = ⟨0, true, [3]⟩ from rfl, h2]
    rfl
  · exact ⟨⟨.master, .active, 0, 1, 17⟩, by decide +kernel⟩
  · exact ⟨⟨.master, .active, 0, 1, 17⟩, by decide +kernel⟩

/-! ### Examples -/

/-- Two partitions with slaves and a third one in preparation. -/
def wideHist : List IAct :=
  plain [.add 1, .add 2, .add 3, .add 4, .add 5, .add 6, .role 1 .master 2 0, .role 2 .master 1 1, .ready 2, .up 2,
    .role 3 .slave 1 0, .up 3, .role 3 .slave 3 0, .role 4 .slave 1 1, .role 5 .master 1 2, .role 6 .slave 1 2]

def wideView (near : NodeKey → Bool) (k : NodeKey) : View := receiveAll near k .init (sent .init wideHist)

/-- Three keys: of partition 0, of partition 1 and moving from 1 to 2; a client sends them to node 4. -/
example : Orderly true .init wideHist ∧ (sent .init wideHist).length = 16 ∧
    spread ⟨8, 1, 16⟩ (wideView fun _ => false) 4 4 { hash := 1 } = [1, 3] ∧
    spread ⟨8, 1, 16⟩ (wideView fun _ => false) 4 4 { hash := 0 } = [2, 4] ∧
    spread ⟨8, 1, 16⟩ (wideView fun _ => false) 4 4 { hash := 2 } = [2, 4, 5, 6] ∧
    resolve ⟨8, 1, 16⟩ 2 2 = some 1 ∧ resolve ⟨8, 1, 16⟩ 2 3 = some 2 := by decide +kernel

example : handle ⟨8, 1, 16⟩ 2 (wideView (fun _ => false) 2) (fun k => k ≠ 4) true ⟨2, true, [6]⟩ = some ⟨true, [5]⟩ ∧
    handle ⟨8, 1, 16⟩ 2 (wideView (fun _ => false) 2) (fun _ => true) true ⟨2, true, [2, 6, 2]⟩ = some ⟨true, []⟩ ∧
    handle ⟨8, 1, 16⟩ 5 (wideView (fun _ => false) 5) (fun _ => true) true ⟨2, false, []⟩ = some ⟨false, [2]⟩ := by
  decide +kernel

/-- Of five reads of partition 0 that arrive at node 4, two go to the master and three to the slave. -/
example : (List.range 5).map (fun i => preRead ⟨8, 1, 16⟩ 4 (wideView (fun _ => false) 4) (fun _ => true) i 1) =
      [.forward 1, .forward 1, .forward 3, .forward 3, .forward 3] ∧
    (List.range 3).map (fun i => preRead ⟨8, 1, 16⟩ 4 (wideView (fun k => k = 3) 4) (fun _ => true) i 1) =
      [.forward 3, .forward 3, .forward 3] ∧
    preRead ⟨8, 1, 16⟩ 3 (wideView (fun _ => false) 3) (fun _ => true) 7 1 = .serve := by decide +kernel

end Flare
