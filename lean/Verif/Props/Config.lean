import Verif.Lemmas.Config

/-!
# C73: reading the options again

A node that receives SIGHUP reads its file again.  Either the file is in order and the node goes on as if it
had been started with it, or the node reports a mistake and goes on as before.
-/

namespace Flare

/-! ## Which files are accepted, and what follows -/

/-- The node reports success exactly when the file can be read and has no mistakes, whatever went on before. -/
theorem C73_accepted (f : Option Given) (n : NodeRun) :
    (reloadNode f n).1 = true ↔ ∃ g, f = some g ∧ g.Valid := by
  cases f with
  | none => exact ⟨(fun h => nomatch h), fun ⟨g, h, _⟩ => nomatch h⟩
  | some g =>
    rw [reloadNode_fst, reloadIni_iff]
    exact ⟨fun h => ⟨g, rfl, h⟩, fun ⟨g', h, h'⟩ => by cases h; exact h'⟩

/-- **Reload is restart**: a node that was started, read any files since, and now reads a file without
mistakes that names every option a reload deals with, is in the state of a node that is started with this
file.  Partial: the command line must leave these options alone, the file must name all of them, and the two
options that are only read at start must be the same (`C73_command_line_lost`, `C73_removed_stays`). -/
theorem C73_restart_partial {cli f0 g : Given} {n0 n1 : NodeRun} (fs : List (Option Given))
    (h0 : startNode cli f0 = some n0) (h1 : startNode cli g = some n1)
    (hcli : cli.OnlyFixed) (hg : g.Complete)
    (hproxy : g.proxyConcurrency = f0.proxyConcurrency) (hcr : g.crConcurrency = f0.crConcurrency) :
    reloadNode (some g) (reloadAll fs n0) = (true, n1) := by
  obtain ⟨l1, mode, hmode, hset, hpos⟩ := startNode_spec h1
  rw [over_fixed hcli] at l1
  obtain ⟨v, hv, ht, hm, hi⟩ := loadIni_eq l1
  have hvg : indexServersOf g = some v := hv
  have htg : g.TypeOk := ht
  have hmg : g.ModeOk := hm
  have hval : g.Valid := ⟨htg, ⟨v, hvg⟩, hmg⟩
  obtain ⟨l0, -⟩ := startNode_spec h0
  rw [over_fixed hcli] at l0
  obtain ⟨p0, c0⟩ := (loadIni_sane l0).2.2
  obtain ⟨p1, c1⟩ := (loadIni_sane l1).2.2
  obtain ⟨pf, cf⟩ := reloadAll_fixed fs n0
  have hsane := reloadAll_sane (startNode_sane h0) fs
  obtain ⟨n, en⟩ : ∃ n, n = reloadAll fs n0 := ⟨_, rfl⟩
  rw [← en] at pf cf hsane ⊢
  have hp : n.ini.proxyConcurrency = n1.ini.proxyConcurrency := by
    rw [pf, p0, p1, hproxy]
  have hc : n.ini.crConcurrency = n1.ini.crConcurrency := by
    rw [cf, c0, c1, hproxy, hcr]
  obtain ⟨g1, g2, g3, g4, g5, g6, g7, g8, g9, g10, g11, g12, g13, g14, g15, g16, g17⟩ := hg
  have hini : (reloadIni g n.ini).2 = n1.ini := by
    rw [reloadIni_valid htg hvg hmg]
    have g2' : g.maxConnection.map toUInt32 ≠ none := by simpa using g2
    rw [hi] at hp hc ⊢
    simp only at hp hc
    simp only [reloadLast, reloadFirst, IniOption.mk.injEq]
    refine ⟨trivial, getD_complete g1 _ _, getD_complete g2' _ _, getD_complete g3 _ _,
      getD_complete g4 _ _, hp, getD_complete g5 _ _, getD_complete g6 _ _, getD_complete g7 _ _,
      getD_complete g8 _ _, getD_complete g9 _ _, getD_complete g10 _ _, getD_complete g11 _ _,
      getD_complete g12 _ _, getD_complete g13 _ _, getD_complete g14 _ _, getD_complete g15 _ _,
      getD_complete g16 _ _, hc, getD_complete g17 _ _⟩
  rw [reloadNode_valid hval, hini]
  have hs1 := startNode_sane h1
  have hcrs := hsane.cr
  rw [hc] at hcrs
  have : applyIni n1.ini n.set = n1.set := by
    rw [hset]
    unfold applyIni reloadCr
    simp only [hmode]
    cases ee : n1.ini.crEnabled with
    | false =>
      simp only [Bool.false_eq_true, if_false, Settings.mk.injEq]
      refine ⟨trivial, trivial, trivial, trivial, ?_, trivial, trivial, trivial, trivial, trivial, trivial,
        trivial, trivial, hsane.proxy.trans hp⟩
      exact replicationCast_getD hs1.type _ _
    | true =>
      simp only [if_true, Settings.mk.injEq]
      refine ⟨trivial, trivial, trivial, trivial, ?_, trivial, trivial, trivial, trivial, trivial, trivial,
        trivial, ?_, hsane.proxy.trans hp⟩
      · exact replicationCast_getD hs1.type _ _
      · have hpos := hpos ee
        have hle : ¬ n1.ini.crConcurrency ≤ 0 := by omega
        cases ec : n.set.cr with
        | none => simp [crStart, hle]
        | some t =>
          have := (hcrs t ec).1
          by_cases hw : n1.ini.crName ≠ t.name ∨ n1.ini.crPort ≠ t.port
          · simp [hw, crStart, hle]
          · simp only [if_neg hw]
            have h' : n1.ini.crName = t.name ∧ n1.ini.crPort = t.port := by
              constructor
              · by_cases h : n1.ini.crName = t.name
                · exact h
                · exact absurd (Or.inl h) hw
              · by_cases h : n1.ini.crPort = t.port
                · exact h
                · exact absurd (Or.inr h) hw
            simp only [crStart, Option.some.injEq]
            rw [h'.1, h'.2, ← this]
  rw [this]

/-- What the options are after any history of files: each is the value that was given last, in a file that
could be read and that was good up to the place where the option is looked at. -/
theorem C73_options (fs : List (Option Given)) (n : NodeRun) :
    let i := (reloadAll fs n).ini
    let all := filesWith (fun _ => True) fs
    let typed := filesWith Given.TypeOk fs
    let indexed := filesWith (fun g => g.TypeOk ∧ g.IndexOk) fs
    let valid := filesWith Given.Valid fs
    i.logFacility = lastGiven (all.map Given.logFacility) n.ini.logFacility ∧
    i.maxConnection = lastGiven (all.map fun g => g.maxConnection.map toUInt32) n.ini.maxConnection ∧
    i.netReadTimeout = lastGiven (all.map Given.netReadTimeout) n.ini.netReadTimeout ∧
    i.reconInterval = lastGiven (all.map Given.reconInterval) n.ini.reconInterval ∧
    i.reconBwlimit = lastGiven (all.map Given.reconBwlimit) n.ini.reconBwlimit ∧
    i.replicationType = lastGiven (typed.map Given.replicationType) n.ini.replicationType ∧
    i.threadPoolSize = lastGiven (typed.map Given.threadPoolSize) n.ini.threadPoolSize ∧
    i.indexServers = lastGiven (indexed.map indexServersOf) n.ini.indexServers ∧
    i.maxTotalThreadQueue = lastGiven (indexed.map Given.maxTotalThreadQueue) n.ini.maxTotalThreadQueue ∧
    i.noreplyWindowLimit = lastGiven (indexed.map Given.noreplyWindowLimit) n.ini.noreplyWindowLimit ∧
    i.watchEnabled = lastGiven (indexed.map Given.watchEnabled) n.ini.watchEnabled ∧
    i.watchInterval = lastGiven (indexed.map Given.watchInterval) n.ini.watchInterval ∧
    i.watchWarn = lastGiven (indexed.map Given.watchWarn) n.ini.watchWarn ∧
    i.watchPingNg = lastGiven (indexed.map Given.watchPingNg) n.ini.watchPingNg ∧
    i.crEnabled = lastGiven (indexed.map Given.crEnabled) n.ini.crEnabled ∧
    i.crName = lastGiven (indexed.map Given.crName) n.ini.crName ∧
    i.crPort = lastGiven (indexed.map Given.crPort) n.ini.crPort ∧
    i.crMode = lastGiven (valid.map Given.crMode) n.ini.crMode ∧
    i.proxyConcurrency = n.ini.proxyConcurrency ∧ i.crConcurrency = n.ini.crConcurrency := by
  have F := reloadIni_fields
  have T : ∀ {P : Prop}, ¬ True → P := fun h => absurd trivial h
  refine ⟨?_, ?_, ?_, ?_, ?_, ?_, ?_, ?_, ?_, ?_, ?_, ?_, ?_, ?_, ?_, ?_, ?_, ?_, reloadAll_fixed fs n⟩
  · exact reloadAll_option _ _ _ (fun g i _ => (F g i).1.1) (fun _ _ h => T h) fs n
  · exact reloadAll_option _ (fun g => g.maxConnection.map toUInt32) _ (fun g i _ => (F g i).1.2.1)
      (fun _ _ h => T h) fs n
  · exact reloadAll_option _ _ _ (fun g i _ => (F g i).1.2.2.1) (fun _ _ h => T h) fs n
  · exact reloadAll_option _ _ _ (fun g i _ => (F g i).1.2.2.2.1) (fun _ _ h => T h) fs n
  · exact reloadAll_option _ _ _ (fun g i _ => (F g i).1.2.2.2.2) (fun _ _ h => T h) fs n
  · exact reloadAll_option _ _ _ (fun g i h => ((F g i).2.1 h).1) (fun g i h => ((F g i).2.2.1 h).1) fs n
  · exact reloadAll_option _ _ _ (fun g i h => ((F g i).2.1 h).2) (fun g i h => ((F g i).2.2.1 h).2) fs n
  · refine reloadAll_option _ _ IniOption.indexServers (fun g i h => ?_)
      (fun g i h => ((F g i).2.2.2.2.1 h).1) fs n
    rw [← ((F g i).2.2.2.1 h).1]
    rfl
  · exact reloadAll_option _ _ _ (fun g i h => ((F g i).2.2.2.1 h).2.1)
      (fun g i h => ((F g i).2.2.2.2.1 h).2.1) fs n
  · exact reloadAll_option _ _ _ (fun g i h => ((F g i).2.2.2.1 h).2.2.1)
      (fun g i h => ((F g i).2.2.2.2.1 h).2.2.1) fs n
  · exact reloadAll_option _ _ _ (fun g i h => ((F g i).2.2.2.1 h).2.2.2.1)
      (fun g i h => ((F g i).2.2.2.2.1 h).2.2.2.1) fs n
  · exact reloadAll_option _ _ _ (fun g i h => ((F g i).2.2.2.1 h).2.2.2.2.1)
      (fun g i h => ((F g i).2.2.2.2.1 h).2.2.2.2.1) fs n
  · exact reloadAll_option _ _ _ (fun g i h => ((F g i).2.2.2.1 h).2.2.2.2.2.1)
      (fun g i h => ((F g i).2.2.2.2.1 h).2.2.2.2.2.1) fs n
  · exact reloadAll_option _ _ _ (fun g i h => ((F g i).2.2.2.1 h).2.2.2.2.2.2.1)
      (fun g i h => ((F g i).2.2.2.2.1 h).2.2.2.2.2.2.1) fs n
  · exact reloadAll_option _ _ _ (fun g i h => ((F g i).2.2.2.1 h).2.2.2.2.2.2.2.1)
      (fun g i h => ((F g i).2.2.2.2.1 h).2.2.2.2.2.2.2.1) fs n
  · exact reloadAll_option _ _ _ (fun g i h => ((F g i).2.2.2.1 h).2.2.2.2.2.2.2.2.1)
      (fun g i h => ((F g i).2.2.2.2.1 h).2.2.2.2.2.2.2.2.1) fs n
  · exact reloadAll_option _ _ _ (fun g i h => ((F g i).2.2.2.1 h).2.2.2.2.2.2.2.2.2)
      (fun g i h => ((F g i).2.2.2.2.1 h).2.2.2.2.2.2.2.2.2) fs n
  · exact reloadAll_option _ _ _ (fun g i h => (F g i).2.2.2.2.2.1 h) (fun g i h => (F g i).2.2.2.2.2.2.1 h) fs n

/-- After a file that is accepted the node acts on its options. -/
theorem C73_applied {cli f0 g : Given} {n0 : NodeRun} (h0 : startNode cli f0 = some n0)
    (fs : List (Option Given)) (hg : g.Valid) :
    let r := (reloadNode (some g) (reloadAll fs n0)).2
    r.set.readTimeout = millis r.ini.netReadTimeout ∧
    r.set.indexServers = r.ini.indexServers ∧
    r.set.reconInterval = r.ini.reconInterval ∧
    r.set.reconBwlimit = r.ini.reconBwlimit ∧
    (r.set.replication = true ↔ r.ini.replicationType = ascii "sync") ∧
    r.set.poolSize = r.ini.threadPoolSize ∧
    r.set.maxTotalThreadQueue = r.ini.maxTotalThreadQueue ∧
    r.set.noreplyWindowLimit = r.ini.noreplyWindowLimit ∧
    r.set.watch = (if r.ini.watchEnabled then some r.ini.watchInterval else none) ∧
    r.set.watchWarn = r.ini.watchWarn ∧ r.set.watchPingNg = r.ini.watchPingNg ∧
    (r.set.crMode = true ↔ r.ini.crMode = ascii "forward") ∧
    r.set.cr = (if r.ini.crEnabled ∧ 0 < r.ini.crConcurrency then
        some ⟨r.ini.crName, r.ini.crPort, r.ini.crConcurrency⟩ else none) := by
  have hsane := reloadAll_sane (startNode_sane h0) fs
  obtain ⟨n, en⟩ : ∃ n, n = reloadAll fs n0 := ⟨_, rfl⟩
  rw [← en] at hsane ⊢
  intro r
  have hr : r.Sane := reloadNode_sane hsane (some g)
  have er : r = ⟨(reloadIni g n.ini).2, applyIni (reloadIni g n.ini).2 n.set⟩ :=
    congrArg Prod.snd (reloadNode_valid hg n)
  have eset : r.set = applyIni r.ini n.set := by rw [er]
  have hcc : r.ini.crConcurrency = n.ini.crConcurrency := by
    rw [er]; exact (reloadIni_fields g n.ini).2.2.2.2.2.2.2.2
  obtain ⟨a1, a2, a3, a4, a5, a6, a7, a8, a9, a10, a11, a12⟩ := reloadCr_fields r.ini
    { n.set with
      readTimeout := millis r.ini.netReadTimeout
      indexServers := r.ini.indexServers
      reconInterval := r.ini.reconInterval
      reconBwlimit := r.ini.reconBwlimit
      replication := (replicationCast r.ini.replicationType).getD n.set.replication
      poolSize := r.ini.threadPoolSize
      maxTotalThreadQueue := r.ini.maxTotalThreadQueue
      noreplyWindowLimit := r.ini.noreplyWindowLimit
      watch := if r.ini.watchEnabled then some r.ini.watchInterval else none
      watchWarn := r.ini.watchWarn
      watchPingNg := r.ini.watchPingNg }
  rw [eset]
  refine ⟨a1, a2, a3, a4, ?_, a6, a7, a8, a9, a10, a11, ?_, ?_⟩
  · rw [show (applyIni r.ini n.set).replication = _ from a5]
    rcases hr.type with e | e <;> rw [e]
    · simp only [show replicationCast (ascii "async") = some false from by decide, Option.getD_some]
      decide
    · simp only [show replicationCast (ascii "sync") = some true from by decide, Option.getD_some]
  · unfold applyIni reloadCr
    rcases hr.mode with e | e <;> rw [e]
    · simp only [show modeCast (ascii "duplicate") = some false from by decide]
      constructor
      · intro h; cases hE : r.ini.crEnabled <;> simp [hE] at h
      · intro h; exact absurd h (by decide)
    · simp only [show modeCast (ascii "forward") = some true from by decide]
      refine ⟨fun _ => trivial, fun _ => ?_⟩
      cases hE : r.ini.crEnabled <;> simp
  · obtain ⟨m, hm⟩ : ∃ m, modeCast r.ini.crMode = some m := by
      rcases hr.mode with e | e <;> rw [e]
      · exact ⟨false, by decide⟩
      · exact ⟨true, by decide⟩
    unfold applyIni reloadCr
    simp only [hm]
    cases hE : r.ini.crEnabled with
    | false => simp
    | true =>
      simp only [if_true, true_and]
      cases ec : n.set.cr with
      | none =>
        by_cases hp : 0 < r.ini.crConcurrency
        · have : ¬ r.ini.crConcurrency ≤ 0 := by omega
          simp [crStart, hp, this]
        · have : r.ini.crConcurrency ≤ 0 := by omega
          simp [crStart, hp, this]
      | some t =>
        obtain ⟨ht, hp⟩ := hsane.cr t ec
        rw [← hcc] at hp
        by_cases hw : r.ini.crName ≠ t.name ∨ r.ini.crPort ≠ t.port
        · have : ¬ r.ini.crConcurrency ≤ 0 := by omega
          simp [hw, crStart, hp, this]
        · have h' : t = ⟨r.ini.crName, r.ini.crPort, r.ini.crConcurrency⟩ := by
            obtain ⟨tn, tp, tc⟩ := t
            simp only at ht hw ⊢
            have hw' : r.ini.crName = tn ∧ r.ini.crPort = tp := by
              constructor
              · by_cases h : r.ini.crName = tn
                · exact h
                · exact absurd (Or.inl h) hw
              · by_cases h : r.ini.crPort = tp
                · exact h
                · exact absurd (Or.inr h) hw
            rw [hw'.1, hw'.2, hcc, ht]
          simp only [if_neg hw, crStart]
          rw [h']
          simp [hp]

/-- A file that is not accepted, or cannot be read, leaves what the parts of the node act on as it is. -/
theorem C73_refused_kept (f : Option Given) (n : NodeRun) (h : (reloadNode f n).1 = false) :
    (reloadNode f n).2.set = n.set := by
  cases f with
  | none => rfl
  | some g =>
    have : ¬ g.Valid := fun hv => by rw [reloadNode_valid hv] at h; cases h
    rw [reloadNode_refused this]

/-- Reading the same file twice is reading it once. -/
theorem C73_again {cli f0 g : Given} {n0 : NodeRun} (h0 : startNode cli f0 = some n0)
    (fs : List (Option Given)) (hg : g.Valid) :
    (reloadNode (some g) (reloadNode (some g) (reloadAll fs n0)).2).2 =
      (reloadNode (some g) (reloadAll fs n0)).2 := by
  obtain ⟨n, en⟩ : ∃ n, n = reloadAll fs n0 := ⟨_, rfl⟩
  have hsane : n.Sane := by rw [en]; exact reloadAll_sane (startNode_sane h0) fs
  rw [← en]
  obtain ⟨ht, ⟨v, hv⟩, hm⟩ := hg
  have hg : g.Valid := ⟨ht, ⟨v, hv⟩, hm⟩
  obtain ⟨r, er⟩ : ∃ r, r = (reloadNode (some g) n).2 := ⟨_, rfl⟩
  have e1 := reloadNode_valid hg n
  have hr : r = ⟨(reloadIni g n.ini).2, applyIni (reloadIni g n.ini).2 n.set⟩ := by rw [er, e1]
  have hrs : r.Sane := by rw [er]; exact reloadNode_sane hsane _
  have hi : (reloadIni g r.ini).2 = r.ini := by
    rw [hr]
    simp only [reloadIni_valid ht hv hm]
    have gg : ∀ {α : Type} (o : Option α) (a : α), o.getD (o.getD a) = o.getD a := by
      intro α o a; cases o <;> rfl
    simp only [reloadLast, reloadFirst, gg]
  rw [← er, reloadNode_valid hg r, hi]
  have hs : r.set = applyIni r.ini n.set := by rw [hr]
  suffices applyIni r.ini r.set = r.set by rw [this]
  rw [hs]
  unfold applyIni
  obtain ⟨m, hmm⟩ : ∃ m, modeCast r.ini.crMode = some m := by
    rcases hrs.mode with e | e <;> rw [e]
    · exact ⟨false, by decide⟩
    · exact ⟨true, by decide⟩
  have hrt := replicationCast_getD hrs.type
  unfold reloadCr
  simp only [hmm]
  cases hE : r.ini.crEnabled with
  | false =>
    simp only [Bool.false_eq_true, if_false, Settings.mk.injEq]
    refine ⟨trivial, trivial, trivial, trivial, hrt _ _, trivial, trivial, trivial, trivial, trivial, trivial,
      trivial, trivial, trivial⟩
  | true =>
    simp only [if_true, Settings.mk.injEq]
    refine ⟨trivial, trivial, trivial, trivial, hrt _ _, trivial, trivial, trivial, trivial, trivial, trivial,
      trivial, ?_, trivial⟩
    cases n.set.cr with
    | none =>
      by_cases hc : r.ini.crConcurrency ≤ 0
      · simp [crStart, hc]
      · simp [crStart, hc]
    | some u =>
      simp only
      by_cases hu : r.ini.crName ≠ u.name ∨ r.ini.crPort ≠ u.port
      · simp only [if_pos hu]
        by_cases hc : r.ini.crConcurrency ≤ 0
        · simp [crStart, hc]
        · simp [crStart, hc]
      · simp only [if_neg hu, crStart]

/-! ## What a reload does not keep -/

/-- A file with a mistake changes the limit of connections at once, although the node reports that the file
is left aside. -/
theorem C73_refused_limit {g : Given} (h : ¬ g.Valid) (n : NodeRun) :
    (reloadNode (some g) n).1 = false ∧
    (reloadNode (some g) n).2.connLimit = (g.maxConnection.map toUInt32).getD n.connLimit := by
  rw [reloadNode_refused h]
  exact ⟨rfl, (reloadIni_fields g n.ini).1.2.1⟩

/-- What a refused file said about the read timeout comes into effect with the next file that is accepted and
says nothing about it. -/
theorem C73_refused_later {g g' : Given} {t : Int} (hg : ¬ g.Valid) (ht : g.netReadTimeout = some t)
    (hg' : g'.Valid) (ht' : g'.netReadTimeout = none) (n : NodeRun) :
    (reloadNode (some g) n).2.set.readTimeout = n.set.readTimeout ∧
    (reloadAll [some g, some g'] n).set.readTimeout = millis t := by
  refine ⟨by rw [reloadNode_refused hg], ?_⟩
  show (reloadNode (some g') (reloadNode (some g) n).2).2.set.readTimeout = _
  rw [reloadNode_refused hg, reloadNode_valid hg']
  refine (reloadCr_fields _ _).1.trans ?_
  simp only
  rw [(reloadIni_fields g' _).1.2.2.1, ht', Option.getD_none]
  rw [(reloadIni_fields g _).1.2.2.1, ht, Option.getD_some]

/-- A node that was started with `replication-type` sync on the command line, and async in its file, answers
writes before they are copied once it has read the unchanged file again. -/
theorem C73_command_line_lost {cli f : Given} {n : NodeRun} (h : startNode cli f = some n)
    (hcli : cli.replicationType = some (ascii "sync")) (hf : f.replicationType = some (ascii "async"))
    (hv : f.Valid) :
    n.set.replication = true ∧ (reloadNode (some f) n).1 = true ∧
    (reloadNode (some f) n).2.set.replication = false := by
  obtain ⟨l, mode, _, hs, _⟩ := startNode_spec h
  obtain ⟨v, _, _, _, hi⟩ := loadIni_eq l
  refine ⟨?_, by rw [reloadNode_valid hv], ?_⟩
  · rw [hs, hi]
    simp only [Given.over, hcli]
    rfl
  · rw [reloadNode_valid hv]
    refine (reloadCr_fields _ _).2.2.2.2.1.trans ?_
    simp only
    rw [((reloadIni_fields f n.ini).2.1 hv.1).1, hf, Option.getD_some,
      show replicationCast (ascii "async") = some false from by decide, Option.getD_some]

/-- A node whose index server is named on the command line only never accepts a file: nothing that is written
into its file comes into effect, except the limit of connections. -/
theorem C73_index_on_command_line (fs : List (Option Given)) (n : NodeRun)
    (h : ∀ g, some g ∈ fs → g.indexServers = none ∧ g.indexServerName = none) :
    (reloadAll fs n).set = n.set ∧ ∀ f ∈ fs, ∀ m, (reloadNode f m).1 = false := by
  have one : ∀ f ∈ fs, ∀ m, (reloadNode f m).1 = false := by
    intro f hf m
    cases f with
    | none => rfl
    | some g =>
      have hg := h g hf
      have : ¬ g.Valid := by
        rintro ⟨_, ⟨v, hv⟩, _⟩
        simp [indexServersOf, hg.1, hg.2] at hv
      rw [reloadNode_refused this]
  refine ⟨?_, one⟩
  clear h
  induction fs generalizing n with
  | nil => rfl
  | cons f fs ih =>
    show (reloadAll fs (reloadNode f n).2).set = _
    rw [ih _ fun g hg => one g (by simp [hg])]
    exact C73_refused_kept f n (one f (by simp) n)

/-- An option that is taken out of the file keeps its value; it does not go back to the default. -/
theorem C73_removed_stays {g : Given} (hg : g.Valid) (h : g.maxConnection = none) (ht : g.netReadTimeout = none)
    (n : NodeRun) :
    (reloadNode (some g) n).2.connLimit = n.connLimit ∧
    (reloadNode (some g) n).2.set.readTimeout = millis n.ini.netReadTimeout := by
  rw [reloadNode_valid hg]
  constructor
  · refine ((reloadIni_fields g n.ini).1.2.1).trans ?_
    rw [h]; rfl
  · refine (reloadCr_fields _ _).1.trans ?_
    simp only
    rw [(reloadIni_fields g n.ini).1.2.2.1, ht, Option.getD_none]

/-- When the concurrency given at start is not positive, a file that turns cluster replication on is accepted
and cluster replication does not run. -/
theorem C73_cluster_replication_off {cli f0 g : Given} {n0 : NodeRun} (h0 : startNode cli f0 = some n0)
    (hc : n0.ini.crConcurrency ≤ 0) (fs : List (Option Given)) (hg : g.Valid) :
    (reloadNode (some g) (reloadAll fs n0)).1 = true ∧
    (reloadNode (some g) (reloadAll fs n0)).2.set.cr = none := by
  refine ⟨by rw [reloadNode_valid hg], ?_⟩
  have := (C73_applied h0 fs hg).2.2.2.2.2.2.2.2.2.2.2.2
  rw [this]
  have hcc : (reloadNode (some g) (reloadAll fs n0)).2.ini.crConcurrency = n0.ini.crConcurrency := by
    rw [reloadNode_ini, (reloadIni_fields g _).2.2.2.2.2.2.2.2]
    exact (reloadAll_fixed fs n0).2
  rw [if_neg]
  rintro ⟨_, h⟩
  omega

/-- No range is checked: a read timeout of 2147484 seconds or more is accepted and overflows, a negative limit
of connections becomes a limit of more than two thousand million. -/
theorem C73_no_range {g : Given} (hg : g.Valid) (n : NodeRun) :
    (∀ t, g.netReadTimeout = some t → 2147484 ≤ t →
      (reloadNode (some g) n).1 = true ∧ (reloadNode (some g) n).2.set.readTimeout = none) ∧
    (∀ m : Int, g.maxConnection = some m → -2147483648 ≤ m → m < 0 →
      (reloadNode (some g) n).1 = true ∧ 2147483648 ≤ (reloadNode (some g) n).2.connLimit) := by
  constructor
  · intro t ht hle
    rw [reloadNode_valid hg]
    refine ⟨rfl, (reloadCr_fields _ _).1.trans ?_⟩
    simp only
    rw [(reloadIni_fields g n.ini).1.2.2.1, ht, Option.getD_some]
    unfold millis
    rw [if_neg]
    omega
  · intro m hm h1 h2
    rw [reloadNode_valid hg]
    refine ⟨rfl, ?_⟩
    show 2147483648 ≤ (reloadIni g n.ini).2.maxConnection
    rw [(reloadIni_fields g n.ini).1.2.1, hm]
    simp only [Option.map_some, Option.getD_some, toUInt32]
    omega

/-! ## The list of index servers -/

/-- A list as it is meant to be written is understood: names and ports, in order. -/
theorem C73_index_list {g : Given} {ts : List IndexText} (hts : ∀ t ∈ ts, t.Ok) (hne : ts ≠ [])
    (hg : g.indexServers = some (indexText ts)) (h1 : g.indexServerName = none)
    (h2 : g.indexServerPort = none) :
    indexServersOf g = some (ts.map fun t => ⟨t.name, t.port⟩) := by
  unfold indexServersOf
  simp only [hg]
  have := indexEntries_text ts hts false ((indexText ts).length + 1)
    (Nat.lt_succ_of_le (indexText_length ts)) (fun h => nomatch h)
  simp only [Bool.false_eq_true, if_false, List.nil_append] at this
  rw [this]
  simp only [h1, h2]
  rw [if_neg (by simpa using hne)]
  rfl

/-- Text without a colon before a comma is left out without a word: a list with a server that has no port is
accepted without this server. -/
theorem C73_index_left_out {g : Given} (junk s : Bytes) (hj : ∀ c ∈ junk, c ≠ 58)
    (hg : g.indexServers = some (junk ++ 44 :: s)) :
    indexServersOf g = indexServersOf { g with indexServers := some s } := by
  unfold indexServersOf
  simp only [hg]
  have e : searchIndex (junk ++ 44 :: s) = searchIndex s :=
    (searchIndex_junk junk hj s).trans (searchIndex_comma s)
  rw [indexEntries_search e, indexEntries_fuel _ (s.length + 1) s (by simp; omega) (by omega)]

/-- Two mistakes that are accepted: a colon too many, and a port with letters. -/
theorem C73_index_misread :
    indexServersOf { indexServers := some (ascii "a:b:1") } = some [⟨ascii "b", 1⟩] ∧
    indexServersOf { indexServers := some (ascii "host:1x2:3") } = some [⟨ascii "host", 1⟩, ⟨ascii "x2", 3⟩] := by
  decide +kernel

/-! ## The signal -/

/-- When no signal comes while a file is being applied, a node whose flag is clear has read a file
that is at least as new as the one that was there at the last signal.  Partial: see `C73_signal_lost`. -/
theorem C73_signal_partial (es : List HupEvent) (hcalm : hupCalm {} es)
    (hflag : (hupRun {} es).flag = false) :
    announced es ≤ (hupRun {} es).loaded ∧ (hupRun {} es).loaded ≤ (hupRun {} es).file := by
  refine ⟨(hup_inv es hcalm).2.2 (Or.inl hflag), ?_⟩
  clear hcalm hflag
  refine snocInduct (P := fun es => (hupRun {} es).loaded ≤ (hupRun {} es).file) (Nat.le_refl _) ?_ es
  intro es e ih
  rw [hupRun_append]
  obtain ⟨s, es'⟩ : ∃ s, s = hupRun {} es := ⟨_, rfl⟩
  rw [← es'] at ih ⊢
  cases e <;> simp only [hupRun, List.foldl_cons, List.foldl_nil, hupStep]
  · omega
  · exact ih
  · by_cases h : (s.flag && !s.busy) = true
    · simp only [if_pos h]; exact Nat.le_refl _
    · simp only [if_neg h]; exact ih
  · by_cases h : s.busy = true
    · simp only [if_pos h]; exact ih
    · simp only [if_neg h]; exact ih

/-- A signal that comes while the file is being applied is lost: the file that was changed in between is never
read, however long the main loop goes on. -/
theorem C73_signal_lost (s : HupState) (hidle : s.busy = false) (es : List HupEvent)
    (hes : ∀ e ∈ es, e = .look ∨ e = .finish) :
    let r := hupRun s ([.hup, .look, .edit, .hup, .finish] ++ es)
    r.loaded < r.file ∧ r.flag = false ∧ r.busy = false := by
  intro r
  have hr : r = hupRun { s with file := s.file + 1, flag := false, busy := false, loaded := s.file } es := by
    show hupRun s _ = _
    rw [hupRun_append]
    congr 1
    simp [hupRun, hupStep, hidle]
  rw [hr]
  clear hr r
  obtain ⟨t, et⟩ : ∃ t : HupState, t = { s with file := s.file + 1, flag := false, busy := false, loaded := s.file } :=
    ⟨_, rfl⟩
  have h1 : t.loaded < t.file ∧ t.flag = false ∧ t.busy = false := by rw [et]; simp
  rw [← et]
  clear et
  suffices hupRun t es = t by rw [this]; exact h1
  induction es with
  | nil => rfl
  | cons e es ih =>
    show hupRun (hupStep t e) es = t
    have : hupStep t e = t := by
      rcases hes e (by simp) with rfl | rfl
      · simp [hupStep, h1.2.1]
      · simp [hupStep, h1.2.2]
    rw [this]
    exact ih fun a ha => hes a (by simp [ha])

/-! ## The index server -/

/-- An index server takes over a file that can be read as a whole, and nothing of one that cannot; but the
pool of the threads that watch nodes keeps its size. -/
theorem C73_index_server (f : Option IndexGiven) (n : IndexRun) :
    ((reloadIndex f n).1 = false → (reloadIndex f n).2 = n) ∧
    (∀ g, f = some g →
      (reloadIndex f n).1 = true ∧
      (reloadIndex f n).2.ini.maxConnection = (g.maxConnection.map toUInt32).getD n.ini.maxConnection ∧
      (reloadIndex f n).2.set.monitorThreshold = g.monitorThreshold.getD n.ini.monitorThreshold ∧
      (reloadIndex f n).2.set.monitorInterval = g.monitorInterval.getD n.ini.monitorInterval ∧
      (reloadIndex f n).2.set.monitorReadTimeout = g.monitorReadTimeout.getD n.ini.monitorReadTimeout ∧
      (reloadIndex f n).2.set.readTimeout = millis (g.netReadTimeout.getD n.ini.netReadTimeout) ∧
      (reloadIndex f n).2.set.reqPool = g.threadPoolSize.getD n.ini.threadPoolSize) ∧
    (reloadIndex f n).2.set.otherPool = n.set.otherPool := by
  cases f with
  | none => exact ⟨fun _ => rfl, fun g h => (nomatch h), rfl⟩
  | some g =>
    refine ⟨(fun h => nomatch h), ?_, rfl⟩
    intro g' h
    cases h
    exact ⟨rfl, rfl, rfl, rfl, rfl, rfl, rfl⟩

/-! ## Examples -/

/-- A node with its index server in the file. -/
def exampleFile : Given :=
  { indexServerName := some (ascii "index"), maxConnection := some 256, netReadTimeout := some 30,
    replicationType := some (ascii "async") }

example : (startNode {} exampleFile).map (fun n => (n.connLimit, n.set.readTimeout, n.set.indexServers)) =
    some (256, some 30000, [⟨ascii "index", 12120⟩]) := by decide +kernel

/-- A misspelt type: the limit changes, the timeout does not. -/
example : (startNode {} exampleFile).map (fun n =>
      let r := reloadNode (some { exampleFile with maxConnection := some 1, netReadTimeout := some 5,
                                                   replicationType := some (ascii "snyc") }) n
      (r.1, r.2.connLimit, r.2.set.readTimeout)) = some (false, 1, some 30000) := by decide +kernel

example : exampleFile.Valid := by
  refine ⟨?_, ⟨_, rfl⟩, ?_⟩
  · intro s h; cases h; exact Or.inl rfl
  · intro s h; cases h

example : ¬ ({ exampleFile with replicationType := some (ascii "snyc") } : Given).Valid := by
  rintro ⟨h, _⟩
  exact absurd (h _ rfl) (by decide)

example : (startNode { replicationType := some (ascii "sync") } exampleFile).map (fun n =>
      (n.set.replication, (reloadNode (some exampleFile) n).2.set.replication)) = some (true, false) := by
  decide +kernel

/-- Cluster replication to another place, and then off. -/
example : (startNode {} { exampleFile with crEnabled := some true, crName := some (ascii "a") }).map (fun n =>
      let r := (reloadNode (some { exampleFile with crName := some (ascii "b") }) n).2
      (n.set.cr, r.set.cr, (reloadNode (some { exampleFile with crEnabled := some false }) r).2.set.cr)) =
    some (some ⟨ascii "a", 12121, 2⟩, some ⟨ascii "b", 12121, 2⟩, none) := by decide +kernel

example : indexText [⟨[], ascii "h1", 12120⟩, ⟨[32], ascii "h2", 1⟩] = ascii "h1:12120, h2:1" := by decide +kernel

example : indexServersOf { indexServers := some (ascii "forgotten,h1:12120, h2:1") } =
    some [⟨ascii "h1", 12120⟩, ⟨ascii "h2", 1⟩] := by decide +kernel

example : announced [.edit, .edit, .hup, .edit] = 2 := by decide

/-- A file that names every option. -/
def completeFile : Given :=
  { indexServers := some (ascii "h1:12120,h2:12121"), logFacility := some (ascii "local0"),
    maxConnection := some 64, noreplyWindowLimit := some 10, netReadTimeout := some 60,
    reconInterval := some 100, reconBwlimit := some 2000, replicationType := some (ascii "sync"),
    threadPoolSize := some 7, maxTotalThreadQueue := some 9, watchEnabled := some true,
    watchInterval := some 50, watchWarn := some 500, watchPingNg := some 800, crEnabled := some true,
    crName := some (ascii "far"), crPort := some 1, crMode := some (ascii "forward") }

/-- `C73_restart_partial` applies: a restart and a reload lead to the same state. -/
example : (∃ n0, startNode {} exampleFile = some n0) ∧ (∃ n1, startNode {} completeFile = some n1) ∧
    ({} : Given).OnlyFixed ∧ completeFile.Complete := by
  refine ⟨?_, ?_, ?_, ?_⟩
  · exact Option.isSome_iff_exists.1 (by decide +kernel)
  · exact Option.isSome_iff_exists.1 (by decide +kernel)
  · simp [Given.OnlyFixed]
  · simp [Given.Complete, completeFile]

example : hupCalm {} [.edit, .hup, .look, .edit, .finish, .hup, .look, .finish] ∧
    hupRun {} [.edit, .hup, .look, .edit, .finish, .hup, .look, .finish] = ⟨2, false, false, 2⟩ := by
  refine ⟨?_, by decide⟩
  simp [hupCalm, hupStep]

end Flare
