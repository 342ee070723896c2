import Verif.Spec.Config
import Verif.Lemmas.Text

/-! # Lemmas on the options of a node -/

namespace Flare

theorem replicationCast_isSome (s : Bytes) :
    (replicationCast s).isSome = true ↔ s = ascii "async" ∨ s = ascii "sync" := by
  unfold replicationCast
  by_cases h1 : s = ascii "async"
  · simp [h1]
  · by_cases h2 : s = ascii "sync"
    · subst h2; decide
    · simp [h1, h2]

theorem modeCast_isSome (s : Bytes) :
    (modeCast s).isSome = true ↔ s = ascii "duplicate" ∨ s = ascii "forward" := by
  unfold modeCast
  by_cases h1 : s = ascii "duplicate"
  · simp [h1]
  · by_cases h2 : s = ascii "forward"
    · subst h2; decide
    · simp [h1, h2]

theorem castType_of_ok {g : Given} (h : g.TypeOk) (d : Bytes) :
    castOr replicationCast d g.replicationType = some (g.replicationType.getD d) := by
  unfold castOr
  cases e : g.replicationType with
  | none => rfl
  | some s => simp [(replicationCast_isSome s).2 (h s e)]

theorem castType_of_not {g : Given} (h : ¬ g.TypeOk) (d : Bytes) :
    castOr replicationCast d g.replicationType = none := by
  unfold castOr
  cases e : g.replicationType with
  | none => exact absurd (fun s hs => by simp [e] at hs) h
  | some s =>
    have : ¬ (replicationCast s).isSome = true := by
      rw [replicationCast_isSome]
      intro hs
      exact h fun t ht => by rw [e] at ht; cases ht; exact hs
    simp only [if_neg this]

theorem castMode_of_ok {g : Given} (h : g.ModeOk) (d : Bytes) :
    castOr modeCast d g.crMode = some (g.crMode.getD d) := by
  unfold castOr
  cases e : g.crMode with
  | none => rfl
  | some s => simp [(modeCast_isSome s).2 (h s e)]

theorem castMode_of_not {g : Given} (h : ¬ g.ModeOk) (d : Bytes) :
    castOr modeCast d g.crMode = none := by
  unfold castOr
  cases e : g.crMode with
  | none => exact absurd (fun s hs => by simp [e] at hs) h
  | some s =>
    have : ¬ (modeCast s).isSome = true := by
      rw [modeCast_isSome]
      intro hs
      exact h fun t ht => by rw [e] at ht; cases ht; exact hs
    simp only [if_neg this]

/-- The options after a file whose replication type is unknown. -/
theorem reloadIni_type {g : Given} (h : ¬ g.TypeOk) (i : IniOption) :
    reloadIni g i = (false, reloadFirst g i) := by
  unfold reloadIni
  simp only [castType_of_not h]

theorem reloadIni_index {g : Given} (h : g.TypeOk) (h' : ¬ g.IndexOk) (i : IniOption) :
    reloadIni g i = (false,
      { reloadFirst g i with
        replicationType := g.replicationType.getD i.replicationType
        threadPoolSize := g.threadPoolSize.getD i.threadPoolSize }) := by
  unfold reloadIni
  have : indexServersOf g = none := by
    cases e : indexServersOf g with
    | none => rfl
    | some v => exact absurd ⟨v, e⟩ h'
  simp only [castType_of_ok h, this]
  rfl

theorem reloadIni_mode {g : Given} (h : g.TypeOk) {v : List IndexAddr} (hv : indexServersOf g = some v)
    (h' : ¬ g.ModeOk) (i : IniOption) :
    reloadIni g i = (false, reloadLast g
      { reloadFirst g i with
        replicationType := g.replicationType.getD i.replicationType
        threadPoolSize := g.threadPoolSize.getD i.threadPoolSize
        indexServers := v }) := by
  unfold reloadIni
  simp only [castType_of_ok h, hv, castMode_of_not h']
  rfl

theorem reloadIni_valid {g : Given} (h : g.TypeOk) {v : List IndexAddr} (hv : indexServersOf g = some v)
    (h' : g.ModeOk) (i : IniOption) :
    reloadIni g i = (true, { reloadLast g
      { reloadFirst g i with
        replicationType := g.replicationType.getD i.replicationType
        threadPoolSize := g.threadPoolSize.getD i.threadPoolSize
        indexServers := v } with crMode := g.crMode.getD i.crMode }) := by
  unfold reloadIni
  simp only [castType_of_ok h, hv, castMode_of_ok h']
  rfl

theorem reloadIni_iff (g : Given) (i : IniOption) : (reloadIni g i).1 = true ↔ g.Valid := by
  by_cases h1 : g.TypeOk
  · by_cases h2 : g.IndexOk
    · obtain ⟨v, hv⟩ := h2
      by_cases h3 : g.ModeOk
      · rw [reloadIni_valid h1 hv h3]
        exact ⟨fun _ => ⟨h1, ⟨v, hv⟩, h3⟩, fun _ => rfl⟩
      · rw [reloadIni_mode h1 hv h3]
        exact ⟨(fun h => nomatch h), fun h => absurd h.2.2 h3⟩
    · rw [reloadIni_index h1 h2]
      exact ⟨(fun h => nomatch h), fun h => absurd h.2.1 h2⟩
  · rw [reloadIni_type h1]
    exact ⟨(fun h => nomatch h), fun h => absurd h.1 h1⟩

/-- How far a reload gets with a file. -/
theorem reloadIni_fields (g : Given) (i : IniOption) :
    let r := (reloadIni g i).2
    (r.logFacility = g.logFacility.getD i.logFacility ∧
     r.maxConnection = (g.maxConnection.map toUInt32).getD i.maxConnection ∧
     r.netReadTimeout = g.netReadTimeout.getD i.netReadTimeout ∧
     r.reconInterval = g.reconInterval.getD i.reconInterval ∧
     r.reconBwlimit = g.reconBwlimit.getD i.reconBwlimit) ∧
    (g.TypeOk →
      r.replicationType = g.replicationType.getD i.replicationType ∧
      r.threadPoolSize = g.threadPoolSize.getD i.threadPoolSize) ∧
    (¬ g.TypeOk → r.replicationType = i.replicationType ∧ r.threadPoolSize = i.threadPoolSize) ∧
    (g.TypeOk ∧ g.IndexOk →
      some r.indexServers = indexServersOf g ∧
      r.maxTotalThreadQueue = g.maxTotalThreadQueue.getD i.maxTotalThreadQueue ∧
      r.noreplyWindowLimit = g.noreplyWindowLimit.getD i.noreplyWindowLimit ∧
      r.watchEnabled = g.watchEnabled.getD i.watchEnabled ∧
      r.watchInterval = g.watchInterval.getD i.watchInterval ∧
      r.watchWarn = g.watchWarn.getD i.watchWarn ∧
      r.watchPingNg = g.watchPingNg.getD i.watchPingNg ∧
      r.crEnabled = g.crEnabled.getD i.crEnabled ∧
      r.crName = g.crName.getD i.crName ∧
      r.crPort = g.crPort.getD i.crPort) ∧
    (¬ (g.TypeOk ∧ g.IndexOk) →
      r.indexServers = i.indexServers ∧ r.maxTotalThreadQueue = i.maxTotalThreadQueue ∧
      r.noreplyWindowLimit = i.noreplyWindowLimit ∧ r.watchEnabled = i.watchEnabled ∧
      r.watchInterval = i.watchInterval ∧ r.watchWarn = i.watchWarn ∧ r.watchPingNg = i.watchPingNg ∧
      r.crEnabled = i.crEnabled ∧ r.crName = i.crName ∧ r.crPort = i.crPort) ∧
    (g.Valid → r.crMode = g.crMode.getD i.crMode) ∧
    (¬ g.Valid → r.crMode = i.crMode) ∧
    r.proxyConcurrency = i.proxyConcurrency ∧ r.crConcurrency = i.crConcurrency := by
  intro r
  by_cases h1 : g.TypeOk
  · by_cases h2 : g.IndexOk
    · obtain ⟨v, hv⟩ := h2
      have h2 : g.IndexOk := ⟨v, hv⟩
      by_cases h3 : g.ModeOk
      · have e : r = _ := congrArg Prod.snd (reloadIni_valid h1 hv h3 i)
        refine ⟨?_, ?_, ?_, ?_, ?_, ?_, ?_, ?_, ?_⟩
        · rw [e]; exact ⟨rfl, rfl, rfl, rfl, rfl⟩
        · intro _; rw [e]; exact ⟨rfl, rfl⟩
        · intro h; exact absurd h1 h
        · intro _; rw [e]; exact ⟨hv.symm, rfl, rfl, rfl, rfl, rfl, rfl, rfl, rfl, rfl⟩
        · intro h; exact absurd ⟨h1, h2⟩ h
        · intro _; rw [e]
        · intro h; exact absurd ⟨h1, h2, h3⟩ h
        · rw [e]; rfl
        · rw [e]; rfl
      · have e : r = _ := congrArg Prod.snd (reloadIni_mode h1 hv h3 i)
        refine ⟨?_, ?_, ?_, ?_, ?_, ?_, ?_, ?_, ?_⟩
        · rw [e]; exact ⟨rfl, rfl, rfl, rfl, rfl⟩
        · intro _; rw [e]; exact ⟨rfl, rfl⟩
        · intro h; exact absurd h1 h
        · intro _; rw [e]; exact ⟨hv.symm, rfl, rfl, rfl, rfl, rfl, rfl, rfl, rfl, rfl⟩
        · intro h; exact absurd ⟨h1, h2⟩ h
        · intro h; exact absurd h.2.2 h3
        · intro _; rw [e]; rfl
        · rw [e]; rfl
        · rw [e]; rfl
    · have e : r = _ := congrArg Prod.snd (reloadIni_index h1 h2 i)
      refine ⟨?_, ?_, ?_, ?_, ?_, ?_, ?_, ?_, ?_⟩
      · rw [e]; exact ⟨rfl, rfl, rfl, rfl, rfl⟩
      · intro _; rw [e]; exact ⟨rfl, rfl⟩
      · intro h; exact absurd h1 h
      · intro h; exact absurd h.2 h2
      · intro _; rw [e]; exact ⟨rfl, rfl, rfl, rfl, rfl, rfl, rfl, rfl, rfl, rfl⟩
      · intro h; exact absurd h.2.1 h2
      · intro _; rw [e]; rfl
      · rw [e]; rfl
      · rw [e]; rfl
  · have e : r = _ := congrArg Prod.snd (reloadIni_type h1 i)
    refine ⟨?_, ?_, ?_, ?_, ?_, ?_, ?_, ?_, ?_⟩
    · rw [e]; exact ⟨rfl, rfl, rfl, rfl, rfl⟩
    · intro h; exact absurd h h1
    · intro _; rw [e]; exact ⟨rfl, rfl⟩
    · intro h; exact absurd h.1 h1
    · intro _; rw [e]; exact ⟨rfl, rfl, rfl, rfl, rfl, rfl, rfl, rfl, rfl, rfl⟩
    · intro h; exact absurd h.1 h1
    · intro _; rw [e]; rfl
    · rw [e]; rfl
    · rw [e]; rfl

theorem reloadNode_ini (g : Given) (n : NodeRun) :
    (reloadNode (some g) n).2.ini = (reloadIni g n.ini).2 := by
  unfold reloadNode
  rcases e : reloadIni g n.ini with ⟨b, i⟩
  simp only [e]
  cases b <;> rfl

theorem reloadNode_fst (g : Given) (n : NodeRun) :
    (reloadNode (some g) n).1 = (reloadIni g n.ini).1 := by
  unfold reloadNode
  rcases e : reloadIni g n.ini with ⟨b, i⟩
  simp only [e]
  cases b <;> rfl

theorem reloadNode_valid {g : Given} (h : g.Valid) (n : NodeRun) :
    reloadNode (some g) n = (true, ⟨(reloadIni g n.ini).2, applyIni (reloadIni g n.ini).2 n.set⟩) := by
  have := (reloadIni_iff g n.ini).2 h
  unfold reloadNode
  rcases e : reloadIni g n.ini with ⟨b, i⟩
  rw [e] at this
  simp only [e]
  cases this
  rfl

theorem reloadNode_refused {g : Given} (h : ¬ g.Valid) (n : NodeRun) :
    reloadNode (some g) n = (false, { n with ini := (reloadIni g n.ini).2 }) := by
  have : ¬ (reloadIni g n.ini).1 = true := fun h' => h ((reloadIni_iff g n.ini).1 h')
  unfold reloadNode
  rcases e : reloadIni g n.ini with ⟨b, i⟩
  rw [e] at this
  simp only [e]
  cases b
  · rfl
  · exact absurd rfl this

theorem reloadAll_append (fs gs : List (Option Given)) (n : NodeRun) :
    reloadAll (fs ++ gs) n = reloadAll gs (reloadAll fs n) := by
  induction fs generalizing n with
  | nil => rfl
  | cons f fs ih => exact ih _

/-- An option that is set by the files with `P` and left alone by the others. -/
theorem reloadAll_option {α : Type} (P : Given → Prop) (get : Given → Option α) (field : IniOption → α)
    (hset : ∀ g i, P g → field (reloadIni g i).2 = (get g).getD (field i))
    (hkeep : ∀ g i, ¬ P g → field (reloadIni g i).2 = field i)
    (fs : List (Option Given)) (n : NodeRun) :
    field (reloadAll fs n).ini = lastGiven ((filesWith P fs).map get) (field n.ini) := by
  induction fs generalizing n with
  | nil => rfl
  | cons f fs ih =>
    rw [show reloadAll (f :: fs) n = reloadAll fs (reloadNode f n).2 from rfl, ih]
    cases f with
    | none => rfl
    | some g =>
      rw [reloadNode_ini]
      by_cases h : P g
      · have e : filesWith P (some g :: fs) = g :: filesWith P fs := by
          simp [filesWith, h]
        rw [e, hset g _ h]
        cases hg : get g with
        | none => simp [lastGiven, hg]
        | some a => simp [lastGiven, hg]
      · have e : filesWith P (some g :: fs) = filesWith P fs := by
          simp [filesWith, h]
        rw [e, hkeep g _ h]

theorem reloadCr_fields (i : IniOption) (s : Settings) :
    (reloadCr i s).readTimeout = s.readTimeout ∧ (reloadCr i s).indexServers = s.indexServers ∧
    (reloadCr i s).reconInterval = s.reconInterval ∧ (reloadCr i s).reconBwlimit = s.reconBwlimit ∧
    (reloadCr i s).replication = s.replication ∧ (reloadCr i s).poolSize = s.poolSize ∧
    (reloadCr i s).maxTotalThreadQueue = s.maxTotalThreadQueue ∧
    (reloadCr i s).noreplyWindowLimit = s.noreplyWindowLimit ∧ (reloadCr i s).watch = s.watch ∧
    (reloadCr i s).watchWarn = s.watchWarn ∧ (reloadCr i s).watchPingNg = s.watchPingNg ∧
    (reloadCr i s).proxyConcurrency = s.proxyConcurrency := by
  unfold reloadCr
  cases modeCast i.crMode with
  | none => simp
  | some m => cases h : i.crEnabled <;> simp

/-- What every node has that was started and then read files: the name of its type and mode are known, and
cluster replication runs with the concurrency of the options. -/
structure NodeRun.Sane (n : NodeRun) : Prop where
  type : n.ini.replicationType = ascii "async" ∨ n.ini.replicationType = ascii "sync"
  mode : n.ini.crMode = ascii "duplicate" ∨ n.ini.crMode = ascii "forward"
  cr : ∀ t, n.set.cr = some t → t.concurrency = n.ini.crConcurrency ∧ 0 < n.ini.crConcurrency
  proxy : n.set.proxyConcurrency = n.ini.proxyConcurrency

theorem castOr_known {cast : Bytes → Option Bool} {d r : Bytes} {o : Option Bytes}
    (h : castOr cast d o = some r) (hd : (cast d).isSome = true) : (cast r).isSome = true := by
  unfold castOr at h
  cases o with
  | none => cases h; exact hd
  | some s =>
    by_cases hs : (cast s).isSome = true
    · simp only [if_pos hs] at h; cases h; exact hs
    · simp only [if_neg hs] at h; cases h

theorem crStart_concurrency {name : Bytes} {port c : Int} {o : Option CrTarget} {t : CrTarget}
    (h : (crStart name port c o).1 = some t) (ho : ∀ t, o = some t → t.concurrency = c ∧ 0 < c) :
    t.concurrency = c ∧ 0 < c := by
  unfold crStart at h
  cases o with
  | some u => exact ho t h
  | none =>
    by_cases hc : c ≤ 0
    · simp [hc] at h
    · simp [hc] at h; rw [← h]; exact ⟨rfl, by omega⟩

theorem reloadCr_cr (i : IniOption) (s : Settings)
    (h : ∀ t, s.cr = some t → t.concurrency = i.crConcurrency ∧ 0 < i.crConcurrency) :
    ∀ t, (reloadCr i s).cr = some t → t.concurrency = i.crConcurrency ∧ 0 < i.crConcurrency := by
  intro t ht
  unfold reloadCr at ht
  cases em : modeCast i.crMode with
  | none => simp only [em] at ht; exact h t ht
  | some m =>
    simp only [em] at ht
    cases ee : i.crEnabled with
    | false => simp [ee] at ht
    | true =>
      simp only [ee, if_true] at ht
      refine crStart_concurrency ht ?_
      intro u hu
      cases ec : s.cr with
      | none => simp [ec] at hu
      | some w =>
        simp only [ec] at hu
        by_cases hw : i.crName ≠ w.name ∨ i.crPort ≠ w.port
        · simp only [if_pos hw] at hu; cases hu
        · simp only [if_neg hw] at hu; cases hu; exact h _ ec

theorem loadIni_sane {g : Given} {i : IniOption} (h : loadIni g = some i) :
    (i.replicationType = ascii "async" ∨ i.replicationType = ascii "sync") ∧
    (i.crMode = ascii "duplicate" ∨ i.crMode = ascii "forward") ∧
    i.proxyConcurrency = g.proxyConcurrency.getD 2 ∧
    i.crConcurrency = g.crConcurrency.getD (g.proxyConcurrency.getD 2) := by
  unfold loadIni at h
  simp only at h
  cases e1 : indexServersOf g with
  | none => simp [e1] at h
  | some v =>
    cases e2 : castOr replicationCast (ascii "async") g.replicationType with
    | none => simp [e1, e2] at h
    | some r =>
      cases e3 : castOr modeCast (ascii "duplicate") g.crMode with
      | none => simp [e1, e2, e3] at h
      | some m =>
        simp only [e1, e2, e3, Option.some.injEq] at h
        subst h
        exact ⟨(replicationCast_isSome r).1 (castOr_known e2 (by decide)),
          (modeCast_isSome m).1 (castOr_known e3 (by decide)), rfl, rfl⟩

theorem startNode_spec {cli file : Given} {n : NodeRun} (h : startNode cli file = some n) :
    loadIni (cli.over file) = some n.ini ∧ ∃ mode, modeCast n.ini.crMode = some mode ∧
      n.set =
        { readTimeout := millis n.ini.netReadTimeout
          indexServers := n.ini.indexServers
          reconInterval := n.ini.reconInterval
          reconBwlimit := n.ini.reconBwlimit
          replication := (replicationCast n.ini.replicationType).getD false
          poolSize := n.ini.threadPoolSize
          maxTotalThreadQueue := n.ini.maxTotalThreadQueue
          noreplyWindowLimit := n.ini.noreplyWindowLimit
          watch := if n.ini.watchEnabled then some n.ini.watchInterval else none
          watchWarn := n.ini.watchWarn
          watchPingNg := n.ini.watchPingNg
          crMode := mode
          cr := if n.ini.crEnabled then some ⟨n.ini.crName, n.ini.crPort, n.ini.crConcurrency⟩ else none
          proxyConcurrency := n.ini.proxyConcurrency } ∧
      (n.ini.crEnabled = true → 0 < n.ini.crConcurrency) := by
  unfold startNode at h
  cases e : loadIni (cli.over file) with
  | none => simp [e] at h
  | some i =>
    cases em : modeCast i.crMode with
    | none => simp [e, em] at h
    | some mode =>
      simp only [e, em] at h
      cases ee : i.crEnabled with
      | false =>
        simp only [ee, Bool.false_eq_true, if_false, Option.some.injEq] at h
        subst h
        refine ⟨rfl, mode, em, ?_, ?_⟩
        · simp [ee]
        · simp [ee]
      | true =>
        by_cases hc : i.crConcurrency ≤ 0
        · simp [ee, crStart, hc] at h
        · simp only [ee, if_true, crStart, if_neg hc, Option.some.injEq] at h
          subst h
          refine ⟨rfl, mode, em, ?_, ?_⟩
          · simp [ee]
          · intro _; simpa using hc

theorem startNode_sane {cli file : Given} {n : NodeRun} (h : startNode cli file = some n) : n.Sane := by
  obtain ⟨h1, mode, h2, h3, h4⟩ := startNode_spec h
  obtain ⟨a, b, c, d⟩ := loadIni_sane h1
  refine ⟨a, b, ?_, ?_⟩
  · intro t ht
    rw [h3] at ht
    simp only at ht
    by_cases he : n.ini.crEnabled = true
    · simp only [if_pos he, Option.some.injEq] at ht; rw [← ht]; exact ⟨rfl, h4 he⟩
    · simp only [if_neg he] at ht; cases ht
  · rw [h3]

theorem reloadNode_sane {n : NodeRun} (h : n.Sane) (f : Option Given) : (reloadNode f n).2.Sane := by
  cases f with
  | none => exact h
  | some g =>
    obtain ⟨_, a, a', _, _, b, b', c, d⟩ := reloadIni_fields g n.ini
    have ht : (reloadIni g n.ini).2.replicationType = ascii "async" ∨
        (reloadIni g n.ini).2.replicationType = ascii "sync" := by
      by_cases hg : g.TypeOk
      · rw [(a hg).1]
        cases e : g.replicationType with
        | none => exact h.type
        | some s => exact hg s e
      · rw [(a' hg).1]; exact h.type
    have hm : (reloadIni g n.ini).2.crMode = ascii "duplicate" ∨
        (reloadIni g n.ini).2.crMode = ascii "forward" := by
      by_cases hg : g.Valid
      · rw [b hg]
        cases e : g.crMode with
        | none => exact h.mode
        | some s => exact hg.2.2 s e
      · rw [b' hg]; exact h.mode
    by_cases hg : g.Valid
    · rw [reloadNode_valid hg]
      refine ⟨ht, hm, ?_, ?_⟩
      · exact reloadCr_cr _ _ fun t ht => by rw [d]; exact h.cr t ht
      · exact ((reloadCr_fields _ _).2.2.2.2.2.2.2.2.2.2.2).trans (h.proxy.trans c.symm)
    · rw [reloadNode_refused hg]
      exact ⟨ht, hm, fun t ht => by rw [d]; exact h.cr t ht, h.proxy.trans c.symm⟩

theorem reloadAll_sane {n : NodeRun} (h : n.Sane) (fs : List (Option Given)) : (reloadAll fs n).Sane := by
  induction fs generalizing n with
  | nil => exact h
  | cons f fs ih => exact ih (reloadNode_sane h f)

theorem reloadAll_fixed (fs : List (Option Given)) (n : NodeRun) :
    (reloadAll fs n).ini.proxyConcurrency = n.ini.proxyConcurrency ∧
    (reloadAll fs n).ini.crConcurrency = n.ini.crConcurrency := by
  induction fs generalizing n with
  | nil => exact ⟨rfl, rfl⟩
  | cons f fs ih =>
    obtain ⟨a, b⟩ := ih (reloadNode f n).2
    refine ⟨a.trans ?_, b.trans ?_⟩
    · cases f with
      | none => rfl
      | some g => rw [reloadNode_ini]; exact (reloadIni_fields g n.ini).2.2.2.2.2.2.2.1
    · cases f with
      | none => rfl
      | some g => rw [reloadNode_ini]; exact (reloadIni_fields g n.ini).2.2.2.2.2.2.2.2

theorem castType_ok_iff {g : Given} {d r : Bytes} (h : castOr replicationCast d g.replicationType = some r) :
    g.TypeOk ∧ r = g.replicationType.getD d := by
  by_cases hg : g.TypeOk
  · rw [castType_of_ok hg, Option.some.injEq] at h; exact ⟨hg, h.symm⟩
  · rw [castType_of_not hg] at h; cases h

theorem castMode_ok_iff {g : Given} {d r : Bytes} (h : castOr modeCast d g.crMode = some r) :
    g.ModeOk ∧ r = g.crMode.getD d := by
  by_cases hg : g.ModeOk
  · rw [castMode_of_ok hg, Option.some.injEq] at h; exact ⟨hg, h.symm⟩
  · rw [castMode_of_not hg] at h; cases h

theorem loadIni_eq {g : Given} {i : IniOption} (h : loadIni g = some i) :
    ∃ v, indexServersOf g = some v ∧ g.TypeOk ∧ g.ModeOk ∧
      i = { indexServers := v
            logFacility := g.logFacility.getD []
            maxConnection := (g.maxConnection.map toUInt32).getD 128
            noreplyWindowLimit := g.noreplyWindowLimit.getD 0
            netReadTimeout := g.netReadTimeout.getD 600
            proxyConcurrency := g.proxyConcurrency.getD 2
            reconInterval := g.reconInterval.getD 0
            reconBwlimit := g.reconBwlimit.getD 0
            replicationType := g.replicationType.getD (ascii "async")
            threadPoolSize := g.threadPoolSize.getD 5
            maxTotalThreadQueue := g.maxTotalThreadQueue.getD 0
            watchEnabled := g.watchEnabled.getD false
            watchInterval := g.watchInterval.getD 0
            watchWarn := g.watchWarn.getD 0
            watchPingNg := g.watchPingNg.getD 0
            crEnabled := g.crEnabled.getD false
            crName := g.crName.getD []
            crPort := g.crPort.getD 12121
            crConcurrency := g.crConcurrency.getD (g.proxyConcurrency.getD 2)
            crMode := g.crMode.getD (ascii "duplicate") } := by
  unfold loadIni at h
  simp only at h
  cases e1 : indexServersOf g with
  | none => simp [e1] at h
  | some v =>
    cases e2 : castOr replicationCast (ascii "async") g.replicationType with
    | none => simp [e1, e2] at h
    | some r =>
      cases e3 : castOr modeCast (ascii "duplicate") g.crMode with
      | none => simp [e1, e2, e3] at h
      | some m =>
        simp only [e1, e2, e3, Option.some.injEq] at h
        obtain ⟨t1, t2⟩ := castType_ok_iff e2
        obtain ⟨m1, m2⟩ := castMode_ok_iff e3
        refine ⟨v, rfl, t1, m1, ?_⟩
        rw [← h, t2, m2]

/-- A command line that leaves the options of a reload alone. -/
theorem over_fixed {cli : Given} (h : cli.OnlyFixed) (g : Given) :
    cli.over g = { g with
      proxyConcurrency := cli.proxyConcurrency <|> g.proxyConcurrency
      crConcurrency := cli.crConcurrency <|> g.crConcurrency } := by
  obtain ⟨h1, h2, h3, h4, h5, h6, h7, h8, h9, h10, h11, h12, h13, h14, h15, h16, h17, h18, h19, h20⟩ := h
  unfold Given.over
  simp only [h1, h2, h3, h4, h5, h6, h7, h8, h9, h10, h11, h12, h13, h14, h15, h16, h17, h18, h19, h20]
  rfl

theorem getD_complete {α : Type} {o : Option α} (h : o ≠ none) (a b : α) : o.getD a = o.getD b := by
  cases o with
  | none => exact absurd rfl h
  | some c => rfl

theorem replicationCast_getD {s : Bytes} (h : s = ascii "async" ∨ s = ascii "sync") (a b : Bool) :
    (replicationCast s).getD a = (replicationCast s).getD b := by
  refine getD_complete ?_ a b
  intro e
  have := (replicationCast_isSome s).2 h
  rw [e] at this
  cases this

/-! ### The list of index servers -/

theorem takeWhile_pre {α : Type} {p : α → Bool} {l : List α} (h : ∀ a ∈ l, p a = true) {c : α} {r : List α}
    (hc : p c = false) : (l ++ c :: r).takeWhile p = l := by
  induction l with
  | nil => simp [hc]
  | cons a l ih =>
    simp only [List.cons_append, List.takeWhile_cons, h a (by simp), if_true]
    rw [ih fun b hb => h b (by simp [hb])]

theorem dropWhile_pre {α : Type} {p : α → Bool} {l : List α} (h : ∀ a ∈ l, p a = true) {c : α} {r : List α}
    (hc : p c = false) : (l ++ c :: r).dropWhile p = c :: r := by
  induction l with
  | nil => simp [hc]
  | cons a l ih =>
    simp only [List.cons_append, List.dropWhile_cons, h a (by simp), if_true]
    exact ih fun b hb => h b (by simp [hb])

/-- What may follow a number. -/
def NoDigit (s : Bytes) : Prop := ∀ c r, s = c :: r → isDigit c = false

theorem takeWhile_end {l s : Bytes} (h : ∀ a ∈ l, isDigit a = true) (hs : NoDigit s) :
    (l ++ s).takeWhile isDigit = l ∧ (l ++ s).dropWhile isDigit = s := by
  cases s with
  | nil =>
    simp only [List.append_nil]
    constructor
    · induction l with
      | nil => rfl
      | cons a l ih =>
        simp only [List.takeWhile_cons, h a (by simp), if_true]
        rw [ih fun b hb => h b (by simp [hb])]
    · induction l with
      | nil => rfl
      | cons a l ih =>
        simp only [List.dropWhile_cons, h a (by simp), if_true]
        exact ih fun b hb => h b (by simp [hb])
  | cons c r => exact ⟨takeWhile_pre h (hs c r rfl), dropWhile_pre h (hs c r rfl)⟩

theorem name_not_blank {c : UInt8} (h : isNameChar c = true) : isBlank c = false := by
  unfold isNameChar at h
  cases hb : isBlank c
  · rfl
  · simp [hb] at h

theorem name_not_comma {c : UInt8} (h : isNameChar c = true) : c ≠ 44 := by
  intro e; subst e; exact absurd h (by decide)

theorem blank_not_comma {c : UInt8} (h : isBlank c = true) : c ≠ 44 := by
  intro e; subst e; exact absurd h (by decide)

theorem skipComma_ne {c : UInt8} (h : c ≠ 44) (s : Bytes) : skipComma (c :: s) = c :: s := by
  unfold skipComma
  split
  · rename_i e; cases e; exact absurd rfl h
  · rfl

theorem blank_of_mem {c : UInt8} (h : c ∈ ([9, 10, 11, 12, 13, 32] : Bytes)) : isBlank c = true := by
  simp only [List.mem_cons, List.not_mem_nil, or_false] at h
  rcases h with rfl | rfl | rfl | rfl | rfl | rfl <;> decide

theorem name_of_not_mem {c : UInt8} (h : c ∉ ([9, 10, 11, 12, 13, 32, 44, 58] : Bytes)) : isNameChar c = true := by
  revert h
  have key : ∀ n : Fin 256, UInt8.ofNat n.val ∉ ([9, 10, 11, 12, 13, 32, 44, 58] : Bytes) →
      isNameChar (UInt8.ofNat n.val) = true := by decide +kernel
  have := key ⟨c.toNat, c.toNat_lt⟩
  simpa using this

/-- The pattern at the beginning of an entry. -/
theorem matchIndex_entry {t : IndexText} (ht : t.Ok) {s : Bytes} (hs : NoDigit s) (comma : Bool) :
    matchIndex ((if comma then [44] else []) ++ (t.text ++ s)) = some (t.name, decimal t.port, s) := by
  obtain ⟨hb', hn, hc', _⟩ := ht
  have hb : ∀ c ∈ t.blanks, isBlank c = true := fun c h => blank_of_mem (hb' c h)
  have hc : ∀ c ∈ t.name, isNameChar c = true := fun c h => name_of_not_mem (hc' c h)
  obtain ⟨c, l, en⟩ := List.exists_cons_of_ne_nil hn
  have e0 : t.text ++ s = t.blanks ++ (t.name ++ 58 :: (decimal t.port ++ s)) := by
    simp [IndexText.text]
  have e1 : skipComma ((if comma then [44] else []) ++ (t.text ++ s)) = t.text ++ s := by
    cases comma with
    | true => rfl
    | false =>
      rw [e0]
      cases eb : t.blanks with
      | nil => rw [en]; exact skipComma_ne (name_not_comma (hc c (by simp [en]))) _
      | cons b bs => exact skipComma_ne (blank_not_comma (hb b (by simp [eb]))) _
  have e2 : (t.text ++ s).dropWhile isBlank = t.name ++ 58 :: (decimal t.port ++ s) := by
    rw [e0, en]
    exact dropWhile_pre hb (name_not_blank (hc c (by simp [en])))
  unfold matchIndex
  simp only [e1, e2]
  rw [takeWhile_pre hc (by decide), dropWhile_pre hc (by decide)]
  obtain ⟨h1, h2⟩ := takeWhile_end (decimal_digits t.port) hs
  simp only [h1, h2]
  rw [if_neg]
  rintro (h | h)
  · exact hn h
  · exact decimal_ne_nil _ h

theorem searchIndex_of_match {s : Bytes} {m : Bytes × Bytes × Bytes} (hs : s ≠ [])
    (h : matchIndex s = some m) : searchIndex s = some m := by
  obtain ⟨c, r, e⟩ := List.exists_cons_of_ne_nil hs
  subst e
  unfold searchIndex
  simp only [h]

theorem lexInt_decimal {n : Nat} (h : n < 2147483648) :
    ∃ p : Int32, lexInt (decimal n) = some p ∧ p.toInt = n := by
  refine ⟨Int32.ofNat n, ?_, ?_⟩
  · unfold lexInt
    rw [lexNumber_decimal]
    have : n < 2 ^ 31 := h
    simp [this]
  · exact Int32.toInt_ofNat_of_lt h

theorem indexText_cons (t : IndexText) (ts : List IndexText) :
    ∃ s, indexText (t :: ts) = t.text ++ s ∧ NoDigit s ∧
      s = (if ts = [] then [] else [44]) ++ indexText ts := by
  cases ts with
  | nil => exact ⟨[], by simp [indexText], (fun c r h => nomatch h), by simp [indexText]⟩
  | cons u us =>
    refine ⟨44 :: indexText (u :: us), rfl, ?_, by simp⟩
    intro c r h
    cases h
    decide

theorem indexEntries_text (ts : List IndexText) (hts : ∀ t ∈ ts, t.Ok) (comma : Bool) (fuel : Nat)
    (hf : ts.length < fuel) (hne : comma = true → ts ≠ []) :
    indexEntries fuel ((if comma then [44] else []) ++ indexText ts) =
      some (ts.map fun t => ⟨t.name, t.port⟩) := by
  induction ts generalizing comma fuel with
  | nil =>
    cases comma with
    | true => exact absurd rfl (hne rfl)
    | false =>
      cases fuel with
      | zero => exact absurd hf (by simp)
      | succ f => rfl
  | cons t ts ih =>
    cases fuel with
    | zero => exact absurd hf (by simp)
    | succ f =>
      obtain ⟨s, e, hs, es⟩ := indexText_cons t ts
      have ht := hts t (by simp)
      have hm := matchIndex_entry ht hs comma
      rw [e]
      have hsearch := searchIndex_of_match (s := (if comma then [44] else []) ++ (t.text ++ s))
        (by intro h; simp [IndexText.text] at h) hm
      obtain ⟨p, hp, hpi⟩ := lexInt_decimal ht.2.2.2
      unfold indexEntries
      simp only [hsearch, hp]
      have hrec : indexEntries f s = some (ts.map fun t => ⟨t.name, t.port⟩) := by
        rw [es]
        by_cases hnil : ts = []
        · subst hnil
          cases f with
          | zero => exact absurd hf (by simp)
          | succ f => rfl
        · have := ih (fun u hu => hts u (by simp [hu])) true f (by simpa using hf) (fun _ => hnil)
          simpa [hnil] using this
      rw [hrec]
      simp [hpi]

theorem indexText_length (ts : List IndexText) : ts.length ≤ (indexText ts).length := by
  induction ts with
  | nil => simp
  | cons t ts ih =>
    obtain ⟨s, e, _, es⟩ := indexText_cons t ts
    rw [e]
    have : (indexText ts).length ≤ s.length := by rw [es]; simp
    simp [IndexText.text]
    omega

/-! Text that is not an entry -/

theorem dropWhile_junk {p : UInt8 → Bool} {c : UInt8} (hc : p c = false) (j s : Bytes) :
    (j ++ c :: s).dropWhile p = j.dropWhile p ++ c :: s := by
  induction j with
  | nil => simp [hc]
  | cons a j ih =>
    simp only [List.cons_append, List.dropWhile_cons]
    cases p a
    · rfl
    · exact ih

theorem matchIndex_junk {j : Bytes} (hne : j ≠ []) (hj : ∀ c ∈ j, c ≠ 58) (s : Bytes) :
    matchIndex (j ++ 44 :: s) = none := by
  obtain ⟨c, l, e⟩ := List.exists_cons_of_ne_nil hne
  have h1 : ∃ k, skipComma (j ++ 44 :: s) = k ++ 44 :: s ∧ ∀ c ∈ k, c ≠ 58 := by
    subst e
    by_cases hc : c = 44
    · subst hc
      exact ⟨l, rfl, fun a ha => hj a (by simp [ha])⟩
    · exact ⟨c :: l, skipComma_ne hc _, hj⟩
  obtain ⟨k, ek, hk⟩ := h1
  unfold matchIndex
  simp only [ek]
  rw [dropWhile_junk (by decide) k, dropWhile_junk (by decide)]
  have h2 : ∀ c ∈ (k.dropWhile isBlank).dropWhile isNameChar, c ≠ 58 := fun a ha =>
    hk a (List.dropWhile_suffix _ |>.subset (List.dropWhile_suffix _ |>.subset ha))
  cases e3 : (k.dropWhile isBlank).dropWhile isNameChar with
  | nil => rfl
  | cons a r =>
    have : a ≠ 58 := h2 a (by simp [e3])
    simp only [List.cons_append]
    split
    · rename_i h; cases h; exact absurd rfl this
    · rfl

theorem searchIndex_junk (j : Bytes) (hj : ∀ c ∈ j, c ≠ 58) (s : Bytes) :
    searchIndex (j ++ 44 :: s) = searchIndex (44 :: s) := by
  induction j with
  | nil => rfl
  | cons c j ih =>
    rw [← ih fun a ha => hj a (by simp [ha])]
    conv => lhs; unfold searchIndex
    simp only [List.cons_append]
    rw [show c :: (j ++ 44 :: s) = (c :: j) ++ 44 :: s from rfl, matchIndex_junk (by simp) hj]

theorem searchIndex_comma (s : Bytes) : searchIndex (44 :: s) = searchIndex s := by
  conv => lhs; unfold searchIndex
  cases h : matchIndex (44 :: s) with
  | none => rfl
  | some m =>
    simp only
    cases s with
    | nil =>
      have : matchIndex [44] = none := by decide
      rw [this] at h; cases h
    | cons c r =>
      by_cases hc : c = 44
      · subst hc
        have : matchIndex (44 :: 44 :: r) = none := matchIndex_junk (j := [44]) (by simp) (by decide) r
        rw [this] at h; cases h
      · have : matchIndex (c :: r) = matchIndex (44 :: c :: r) := by
          unfold matchIndex
          rw [skipComma_ne hc]
          rfl
        exact (searchIndex_of_match (by simp) (this.trans h)).symm

theorem matchIndex_shorter {s : Bytes} {n d r : Bytes} (h : matchIndex s = some (n, d, r)) :
    r.length < s.length := by
  unfold matchIndex at h
  simp only at h
  have hle : ((skipComma s).dropWhile isBlank).length ≤ s.length := by
    refine Nat.le_trans (List.dropWhile_suffix _).length_le ?_
    unfold skipComma
    split <;> simp
  obtain ⟨u, eu⟩ : ∃ u, u = (skipComma s).dropWhile isBlank := ⟨_, rfl⟩
  rw [← eu] at h hle
  have h2 : (u.dropWhile isNameChar).length ≤ u.length := (List.dropWhile_suffix _).length_le
  obtain ⟨w, ew⟩ : ∃ w, w = u.dropWhile isNameChar := ⟨_, rfl⟩
  rw [← ew] at h h2
  split at h
  · rename_i t
    by_cases hh : u.takeWhile isNameChar = [] ∨ t.takeWhile isDigit = []
    · rw [if_pos hh] at h; cases h
    · rw [if_neg hh] at h
      simp only [Option.some.injEq, Prod.mk.injEq] at h
      have : r.length ≤ t.length := by rw [← h.2.2]; exact (List.dropWhile_suffix _).length_le
      simp only [List.length_cons] at h2
      omega
  · cases h

theorem searchIndex_shorter {s : Bytes} {n d r : Bytes} (h : searchIndex s = some (n, d, r)) :
    r.length < s.length := by
  induction s with
  | nil => cases h
  | cons c s ih =>
    unfold searchIndex at h
    cases hm : matchIndex (c :: s) with
    | some m =>
      simp only [hm, Option.some.injEq] at h
      subst h
      exact matchIndex_shorter hm
    | none =>
      simp only [hm] at h
      have := ih h
      simp only [List.length_cons]
      omega

theorem indexEntries_fuel (f k : Nat) (s : Bytes) (hf : s.length < f) (hk : s.length < k) :
    indexEntries f s = indexEntries k s := by
  induction f generalizing k s with
  | zero => omega
  | succ f ih =>
    cases k with
    | zero => omega
    | succ k =>
      unfold indexEntries
      cases h : searchIndex s with
      | none => rfl
      | some m =>
        obtain ⟨n, d, r⟩ := m
        have := searchIndex_shorter h
        simp only
        cases lexInt d with
        | none => rfl
        | some p =>
          simp only
          rw [ih k r (by omega) (by omega)]

theorem indexEntries_search {s t : Bytes} (h : searchIndex s = searchIndex t) (f : Nat) :
    indexEntries f s = indexEntries f t := by
  cases f with
  | zero => rfl
  | succ f => unfold indexEntries; rw [h]

/-! ### The signal -/

theorem hupRun_append (s : HupState) (es fs : List HupEvent) :
    hupRun s (es ++ fs) = hupRun (hupRun s es) fs := List.foldl_append

theorem hupCalm_append {s : HupState} {es fs : List HupEvent} (h : hupCalm s (es ++ fs)) :
    hupCalm s es ∧ hupCalm (hupRun s es) fs := by
  induction es generalizing s with
  | nil => exact ⟨trivial, h⟩
  | cons e es ih =>
    obtain ⟨a, b⟩ := ih h.2
    exact ⟨⟨h.1, a⟩, b⟩

theorem announced_snoc (es : List HupEvent) (e : HupEvent) :
    announced (es ++ [e]) = if e = .hup then es.countP (· = .edit) else announced es := by
  unfold announced
  rw [List.reverse_append]
  cases e <;> simp

theorem snocInduct {α : Type} {P : List α → Prop} (h0 : P []) (h1 : ∀ l a, P l → P (l ++ [a])) :
    ∀ l, P l := by
  intro l
  have : ∀ r : List α, P r.reverse := by
    intro r
    induction r with
    | nil => exact h0
    | cons a r ih => rw [List.reverse_cons]; exact h1 _ _ ih
  simpa using this l.reverse

theorem hup_inv (es : List HupEvent) (h : hupCalm {} es) :
    (hupRun {} es).file = es.countP (· = .edit) ∧ announced es ≤ (hupRun {} es).file ∧
    ((hupRun {} es).flag = false ∨ (hupRun {} es).busy = true → announced es ≤ (hupRun {} es).loaded) := by
  revert h
  refine snocInduct (P := fun es => hupCalm {} es → (hupRun {} es).file = es.countP (· = .edit) ∧
    announced es ≤ (hupRun {} es).file ∧
    ((hupRun {} es).flag = false ∨ (hupRun {} es).busy = true → announced es ≤ (hupRun {} es).loaded))
    ?_ ?_ es
  · intro _
    exact ⟨rfl, Nat.le_refl _, fun _ => Nat.le_refl _⟩
  · intro es e ih h
    obtain ⟨hc, hl⟩ := hupCalm_append h
    obtain ⟨i1, i2, i3⟩ := ih hc
    rw [hupRun_append, announced_snoc, List.countP_append]
    obtain ⟨s, es'⟩ : ∃ s, s = hupRun {} es := ⟨_, rfl⟩
    rw [← es'] at i1 i2 i3 hl ⊢
    cases e with
    | edit =>
      simp only [hupRun, List.foldl_cons, List.foldl_nil, hupStep, reduceCtorEq, if_false]
      refine ⟨by simp [i1], by omega, i3⟩
    | hup =>
      have hb := hl.1 rfl
      simp only [hupRun, List.foldl_cons, List.foldl_nil, hupStep, if_true]
      refine ⟨by simp [i1], by simp [i1], ?_⟩
      rintro (hx | hx)
      · cases hx
      · rw [hb] at hx; cases hx
    | look =>
      simp only [hupRun, List.foldl_cons, List.foldl_nil, hupStep, reduceCtorEq, if_false]
      by_cases hx : (s.flag && !s.busy) = true
      · simp only [if_pos hx]
        exact ⟨by simp [i1], i2, fun _ => i2⟩
      · simp only [if_neg hx]
        exact ⟨by simp [i1], i2, i3⟩
    | finish =>
      simp only [hupRun, List.foldl_cons, List.foldl_nil, hupStep, reduceCtorEq, if_false]
      by_cases hx : s.busy = true
      · simp only [if_pos hx]
        exact ⟨by simp [i1], i2, fun _ => i3 (Or.inr hx)⟩
      · simp only [if_neg hx]
        exact ⟨by simp [i1], i2, i3⟩

end Flare
