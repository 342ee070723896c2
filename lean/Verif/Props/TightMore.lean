import Verif.Props.MySqlMore
import Verif.Props.Report

/-! # C74 and C92: what a client makes of an OK message, and of the threads of all types -/

namespace Flare

/-- How a client of MySQL reads an OK message with short numbers: rows, inserted id, status and warnings. -/
def readOkMessage : Bytes → Option (Nat × Nat × Nat × Nat)
  | [h, rows, id, s0, s1, w0, w1] =>
    if h = 0 ∧ rows < 251 ∧ id < 251 then
      some (rows.toNat, id.toNat, s0.toNat + 256 * s1.toNat, w0.toNat + 256 * w1.toNat)
    else none
  | _ => none

/-- **C74**: whoever logs in, with whatever name and password, is answered with an OK message that a client can read: no
rows, no id, autocommit (status 2), no warnings. -/
theorem C74_welcome (cf : SqlConf) (now : Int64) {i j : UInt8} {auth d rest : Bytes} (ha : SmallLen auth.length)
    {queries : List (UInt8 × Bytes)}
    (hq : ∀ x ∈ queries, SmallLen (x.2.length + 1) ∧ (sqlAnswer now x.2).isSome) (hd : SmallLen (d.length + 1)) :
    ∃ hello ok more e, sqlGreet cf now (sqlPacket i auth ++
        (queries.flatMap (fun x => sqlPacket x.1 (3 :: x.2)) ++ (sqlPacket j (18 :: d) ++ rest))) =
          (hello ++ ok ++ more, e) ∧
      readMessages 1 0 hello = some [sqlHello cf] ∧
      ∃ id m, UInt32.toUInt8 id = i + 1 ∧ readMessages 1 id ok = some [m] ∧ readOkMessage m = some (0, 0, 2, 0) := by
  obtain ⟨hello, ok, outs, link, h1, h2, ⟨id, h3, h4⟩, -⟩ := C74_greeting cf now (i := i) (j := j) (rest := rest) ha hq hd
  exact ⟨hello, ok, outs.flatten, _, h1, h2, id, _, h3, h4, by decide⟩

example : readOkMessage [0, 1, 0, 2, 0, 0, 1] = some (1, 0, 2, 256) ∧ readOkMessage [0xff, 0, 0, 2, 0, 0, 0] = none := by
  decide

/-- The threads of a type that has no entry yet: none, and the map has one more entry without threads. -/
theorem typeMap_at_all (m : TypeMap) (ty : Int32) : (m.at ty).2.all = m.all := by
  unfold TypeMap.at
  split
  · rfl
  · simp [TypeMap.all]

/-- **C92**: the report of all threads holds the threads of each type, and no others. -/
theorem C92_all_types (m : TypeMap) (hm : (m.map Prod.fst).Nodup) (t : ThreadInfo) :
    t ∈ m.all ↔ ∃ ty, t ∈ (m.at ty).1 := by
  constructor
  · intro h
    obtain ⟨x, hx, ht⟩ := List.mem_flatMap.1 h
    refine ⟨x.1, ?_⟩
    have hf : m.find? (·.1 = x.1) = some x := by
      clear h
      induction m with
      | nil => cases hx
      | cons y m ih =>
        rw [List.map_cons, List.nodup_cons] at hm
        rcases List.mem_cons.1 hx with rfl | hx
        · simp
        · have : y.1 ≠ x.1 := fun e => hm.1 (e ▸ List.mem_map_of_mem hx)
          rw [List.find?_cons_of_neg (by simpa using this)]
          exact ih hm.2 hx
    unfold TypeMap.at
    rw [hf]
    exact ht
  · rintro ⟨ty, h⟩
    unfold TypeMap.at at h
    split at h
    · rename_i x hx
      exact List.mem_flatMap.2 ⟨x, List.mem_of_find?_eq_some hx, h⟩
    · cases h

/-- **C92**: requests for the threads of any types, in any order of their steps, leave the report of all threads as it
is. -/
theorem C92_all_stay (s : Asking) (is : List Nat) : (s.run is).map.all = s.map.all := by
  induction is generalizing s with
  | nil => rfl
  | cons i is ih =>
    refine (ih (s.step i)).trans ?_
    unfold Asking.step
    split
    · rfl
    · exact typeMap_at_all _ _
    · rfl

example :
    let a : ThreadInfo := ⟨1, 2, [], 0, [], 0, [], [], 0, 0⟩
    let b : ThreadInfo := ⟨2, 3, [], 0, [], 0, [], [], 0, 0⟩
    let m : TypeMap := [(2, [a]), (3, [b])]
    m.all = [a, b] ∧ (m.at 3).1 = [b] ∧ (Asking.run ⟨m, [(5, .before), (3, .before)], false⟩ [0, 1, 0, 1]).map.all = [a, b] := by
  decide

end Flare
