import Verif.Model.Dump
import Verif.Model.Control

/-!
# Options of a node: start and reload

`ini_option` (/repo/src/flared/ini_option.cc) keeps the options of a node.  They are set from the command
line and the configuration file when the node starts (`load`) and from the file alone when the node receives
SIGHUP (`reload`); `flared::reload` (/repo/src/flared/flared.cc:361-437) then hands them on to the parts of the
running node.

Simplifications:

* the model begins after `program_options` has read the command line and the file: `Given` holds the value of
  each option that is given.  A file that cannot be opened or read is `none`.
* only the options that a reload deals with, and those they depend on, are in the model; the logger, the
  limit of open files and the dump of cluster replication are left out.
* `int` is `Int`, `uint32_t` is `Nat`; the two conversions between them are spelled out.
-/

namespace Flare

/-- An index server, /repo/src/lib/cluster.h:107-110. -/
structure IndexAddr where
  name : Bytes
  port : Int
  deriving DecidableEq, Repr

/-- `program_options::variables_map`: the options that are given, with their values
(/repo/src/flared/ini_option.cc:608-660). -/
structure Given where
  indexServers : Option Bytes := none
  indexServerName : Option Bytes := none
  indexServerPort : Option Int := none
  logFacility : Option Bytes := none
  maxConnection : Option Int := none
  noreplyWindowLimit : Option Int := none
  netReadTimeout : Option Int := none
  proxyConcurrency : Option Int := none
  reconInterval : Option Int := none
  reconBwlimit : Option Int := none
  replicationType : Option Bytes := none
  threadPoolSize : Option Int := none
  maxTotalThreadQueue : Option Nat := none
  watchEnabled : Option Bool := none
  watchInterval : Option Nat := none
  watchWarn : Option Nat := none
  watchPingNg : Option Nat := none
  crEnabled : Option Bool := none
  crName : Option Bytes := none
  crPort : Option Int := none
  crConcurrency : Option Int := none
  crMode : Option Bytes := none
  deriving DecidableEq, Repr

/-- The members of `ini_option`, with the values of its constructor
(/repo/src/flared/ini_option.cc:40-92, /repo/src/flared/ini_option.h:101-127). -/
structure IniOption where
  indexServers : List IndexAddr := []
  logFacility : Bytes := []
  maxConnection : Nat := 128
  noreplyWindowLimit : Int := 0
  netReadTimeout : Int := 600
  proxyConcurrency : Int := 2
  reconInterval : Int := 0
  reconBwlimit : Int := 0
  replicationType : Bytes := []
  threadPoolSize : Int := 5
  maxTotalThreadQueue : Nat := 0
  watchEnabled : Bool := false
  watchInterval : Nat := 0
  watchWarn : Nat := 0
  watchPingNg : Nat := 0
  crEnabled : Bool := false
  crName : Bytes := []
  crPort : Int := 12121
  crConcurrency : Int := 2
  crMode : Bytes := []
  deriving DecidableEq, Repr

/-- Conversion of an `int` to `uint32_t`. -/
def toUInt32 (i : Int) : Nat := (i % 4294967296).toNat

/-- `\s` of the pattern. -/
def isBlank (c : UInt8) : Bool := c == 32 || (9 ≤ c && c ≤ 13)

/-- `[^,:\s]`. -/
def isNameChar (c : UInt8) : Bool := !(c == 44 || c == 58 || isBlank c)

/-- `,?`. -/
def skipComma : Bytes → Bytes
  | 44 :: s => s
  | s => s

/-- The pattern `,?\s*([^,:\s]+):(\d+)` at the beginning of a text: the two groups and what follows
(/repo/src/flared/ini_option.cc:666).  The sets of characters exclude one another, so that the longest
match of each part is the only one that can lead to a match. -/
def matchIndex (s : Bytes) : Option (Bytes × Bytes × Bytes) :=
  let s := (skipComma s).dropWhile isBlank
  let name := s.takeWhile isNameChar
  match s.dropWhile isNameChar with
  | 58 :: t =>
    let digits := t.takeWhile isDigit
    if name = [] ∨ digits = [] then none else some (name, digits, t.dropWhile isDigit)
  | _ => none

/-- `boost::regex_search`: the first place where the pattern matches. -/
def searchIndex : Bytes → Option (Bytes × Bytes × Bytes)
  | [] => none
  | c :: s =>
    match matchIndex (c :: s) with
    | some m => some m
    | none => searchIndex s

/-- The loop over `index-servers`, /repo/src/flared/ini_option.cc:673-685; `fuel` bounds the number of
entries. -/
def indexEntries : Nat → Bytes → Option (List IndexAddr)
  | 0, _ => some []
  | fuel + 1, s =>
    match searchIndex s with
    | none => some []
    | some (name, digits, rest) =>
      match lexInt digits with
      | none => none
      | some port =>
        match indexEntries fuel rest with
        | none => none
        | some v => some (⟨name, port.toInt⟩ :: v)

/-- `ini_option::_process_index_servers`, /repo/src/flared/ini_option.cc:663-716: the new list, or refused. -/
def indexServersOf (g : Given) : Option (List IndexAddr) :=
  match g.indexServers with
  | some s =>
    match indexEntries (s.length + 1) s with
    | none => none
    | some v =>
      if v = [] then none
      else if g.indexServerName.isSome || g.indexServerPort.isSome then none
      else some v
  | none =>
    let name := g.indexServerName.getD []
    if name = [] then none else some [⟨name, g.indexServerPort.getD 12120⟩]

/-- `cluster::replication_cast`, /repo/src/lib/cluster.h:317-326: `true` for sync. -/
def replicationCast (s : Bytes) : Option Bool :=
  if s = ascii "async" then some false else if s = ascii "sync" then some true else none

/-- `cluster_replication::mode_cast`, /repo/src/lib/cluster_replication.h:82-91: `true` for forward. -/
def modeCast (s : Bytes) : Option Bool :=
  if s = ascii "duplicate" then some false else if s = ascii "forward" then some true else none

/-- The value of an option that decides by a name, when the name is known; the name `d` when it is not
given (/repo/src/flared/ini_option.cc:257-266, 386-395). -/
def castOr (cast : Bytes → Option Bool) (d : Bytes) (o : Option Bytes) : Option Bytes :=
  match o with
  | none => some d
  | some s => if (cast s).isSome then some s else none

/-- The command line goes before the file: `program_options::store` keeps the value that is there
(/repo/src/flared/ini_option.cc:130, 165). -/
def Given.over (cli file : Given) : Given where
  indexServers := cli.indexServers <|> file.indexServers
  indexServerName := cli.indexServerName <|> file.indexServerName
  indexServerPort := cli.indexServerPort <|> file.indexServerPort
  logFacility := cli.logFacility <|> file.logFacility
  maxConnection := cli.maxConnection <|> file.maxConnection
  noreplyWindowLimit := cli.noreplyWindowLimit <|> file.noreplyWindowLimit
  netReadTimeout := cli.netReadTimeout <|> file.netReadTimeout
  proxyConcurrency := cli.proxyConcurrency <|> file.proxyConcurrency
  reconInterval := cli.reconInterval <|> file.reconInterval
  reconBwlimit := cli.reconBwlimit <|> file.reconBwlimit
  replicationType := cli.replicationType <|> file.replicationType
  threadPoolSize := cli.threadPoolSize <|> file.threadPoolSize
  maxTotalThreadQueue := cli.maxTotalThreadQueue <|> file.maxTotalThreadQueue
  watchEnabled := cli.watchEnabled <|> file.watchEnabled
  watchInterval := cli.watchInterval <|> file.watchInterval
  watchWarn := cli.watchWarn <|> file.watchWarn
  watchPingNg := cli.watchPingNg <|> file.watchPingNg
  crEnabled := cli.crEnabled <|> file.crEnabled
  crName := cli.crName <|> file.crName
  crPort := cli.crPort <|> file.crPort
  crConcurrency := cli.crConcurrency <|> file.crConcurrency
  crMode := cli.crMode <|> file.crMode

/-- `ini_option::load` after the command line and the file have been read
(/repo/src/flared/ini_option.cc:177-404). -/
def loadIni (g : Given) : Option IniOption :=
  let d : IniOption := {}
  match indexServersOf g with
  | none => none
  | some servers =>
    match castOr replicationCast (ascii "async") g.replicationType with
    | none => none
    | some rtype =>
      match castOr modeCast (ascii "duplicate") g.crMode with
      | none => none
      | some mode =>
        let proxy := g.proxyConcurrency.getD d.proxyConcurrency
        some
          { indexServers := servers
            logFacility := g.logFacility.getD d.logFacility
            maxConnection := (g.maxConnection.map toUInt32).getD d.maxConnection
            noreplyWindowLimit := g.noreplyWindowLimit.getD d.noreplyWindowLimit
            netReadTimeout := g.netReadTimeout.getD d.netReadTimeout
            proxyConcurrency := proxy
            reconInterval := g.reconInterval.getD d.reconInterval
            reconBwlimit := g.reconBwlimit.getD d.reconBwlimit
            replicationType := rtype
            threadPoolSize := g.threadPoolSize.getD d.threadPoolSize
            maxTotalThreadQueue := g.maxTotalThreadQueue.getD d.maxTotalThreadQueue
            watchEnabled := g.watchEnabled.getD d.watchEnabled
            watchInterval := g.watchInterval.getD d.watchInterval
            watchWarn := g.watchWarn.getD d.watchWarn
            watchPingNg := g.watchPingNg.getD d.watchPingNg
            crEnabled := g.crEnabled.getD d.crEnabled
            crName := g.crName.getD d.crName
            crPort := g.crPort.getD d.crPort
            crConcurrency := g.crConcurrency.getD proxy
            crMode := mode }

/-- The options that `reload` sets before it looks at `replication-type`
(/repo/src/flared/ini_option.cc:448-471). -/
def reloadFirst (g : Given) (i : IniOption) : IniOption :=
  { i with
    logFacility := g.logFacility.getD i.logFacility
    maxConnection := (g.maxConnection.map toUInt32).getD i.maxConnection
    netReadTimeout := g.netReadTimeout.getD i.netReadTimeout
    reconInterval := g.reconInterval.getD i.reconInterval
    reconBwlimit := g.reconBwlimit.getD i.reconBwlimit }

/-- The options between the index servers and `cluster-replication-mode`
(/repo/src/flared/ini_option.cc:515-562). -/
def reloadLast (g : Given) (i : IniOption) : IniOption :=
  { i with
    maxTotalThreadQueue := g.maxTotalThreadQueue.getD i.maxTotalThreadQueue
    noreplyWindowLimit := g.noreplyWindowLimit.getD i.noreplyWindowLimit
    watchEnabled := g.watchEnabled.getD i.watchEnabled
    watchInterval := g.watchInterval.getD i.watchInterval
    watchWarn := g.watchWarn.getD i.watchWarn
    watchPingNg := g.watchPingNg.getD i.watchPingNg
    crEnabled := g.crEnabled.getD i.crEnabled
    crName := g.crName.getD i.crName
    crPort := g.crPort.getD i.crPort }

/-- `ini_option::reload` after the file has been read (/repo/src/flared/ini_option.cc:447-584): whether the
file is accepted, and the options afterwards. -/
def reloadIni (g : Given) (i : IniOption) : Bool × IniOption :=
  let i := reloadFirst g i
  match castOr replicationCast i.replicationType g.replicationType with
  | none => (false, i)
  | some rtype =>
    let i := { i with replicationType := rtype }
    let i := { i with threadPoolSize := g.threadPoolSize.getD i.threadPoolSize }
    match indexServersOf g with
    | none => (false, i)
    | some servers =>
      let i := reloadLast g { i with indexServers := servers }
      match castOr modeCast i.crMode g.crMode with
      | none => (false, i)
      | some mode => (true, { i with crMode := mode })

/-- Cluster replication that has been started, /repo/src/lib/cluster_replication.h:57-60. -/
structure CrTarget where
  name : Bytes
  port : Int
  concurrency : Int
  deriving DecidableEq, Repr

/-- What the parts of a running node act on. -/
structure Settings where
  /-- `connection_tcp::read_timeout` in milliseconds; `none` when the product does not fit into an `int` -/
  readTimeout : Option Int
  indexServers : List IndexAddr
  reconInterval : Int
  reconBwlimit : Int
  /-- `true`: sync -/
  replication : Bool
  poolSize : Int
  maxTotalThreadQueue : Nat
  noreplyWindowLimit : Int
  /-- the interval of the time watcher, when it runs -/
  watch : Option Nat
  watchWarn : Nat
  watchPingNg : Nat
  /-- `true`: forward -/
  crMode : Bool
  cr : Option CrTarget
  proxyConcurrency : Int
  deriving DecidableEq, Repr

/-- A running node: its options and what its parts act on. -/
structure NodeRun where
  ini : IniOption
  set : Settings
  deriving DecidableEq, Repr

/-- Above how many threads for requests a new connection is closed: read from the options each time
(/repo/src/flared/flared.cc:338). -/
def NodeRun.connLimit (n : NodeRun) : Nat := n.ini.maxConnection

/-- `get_net_read_timeout() * 1000`, /repo/src/flared/flared.cc:177, 373. -/
def millis (s : Int) : Option Int :=
  if -2147483648 ≤ s * 1000 ∧ s * 1000 ≤ 2147483647 then some (s * 1000) else none

/-- `cluster_replication::start`, /repo/src/lib/cluster_replication.cc:73-110: what runs afterwards and
whether it was started. -/
def crStart (name : Bytes) (port concurrency : Int) : Option CrTarget → Option CrTarget × Bool
  | some t => (some t, false)
  | none => if concurrency ≤ 0 then (none, false) else (some ⟨name, port, concurrency⟩, true)

/-- `flared::startup`, /repo/src/flared/flared.cc:140-301. -/
def startNode (cli : Given) (file : Given) : Option NodeRun :=
  match loadIni (cli.over file) with
  | none => none
  | some i =>
    match modeCast i.crMode with
    | none => none
    | some mode =>
      let s : Settings :=
        { readTimeout := millis i.netReadTimeout
          indexServers := i.indexServers
          reconInterval := i.reconInterval
          reconBwlimit := i.reconBwlimit
          replication := (replicationCast i.replicationType).getD false
          poolSize := i.threadPoolSize
          maxTotalThreadQueue := i.maxTotalThreadQueue
          noreplyWindowLimit := i.noreplyWindowLimit
          watch := if i.watchEnabled then some i.watchInterval else none
          watchWarn := i.watchWarn
          watchPingNg := i.watchPingNg
          crMode := mode
          cr := none
          proxyConcurrency := i.proxyConcurrency }
      if i.crEnabled then
        match crStart i.crName i.crPort i.crConcurrency none with
        | (t, true) => some ⟨i, { s with cr := t }⟩
        | (_, false) => none
      else some ⟨i, s⟩

/-- Cluster replication when the options have been read again, /repo/src/flared/flared.cc:412-432. -/
def reloadCr (i : IniOption) (s : Settings) : Settings :=
  match modeCast i.crMode with
  | none => s
  | some mode =>
    let s := { s with crMode := mode }
    if i.crEnabled then
      let running :=
        match s.cr with
        | none => none
        | some t => if i.crName ≠ t.name ∨ i.crPort ≠ t.port then none else some t
      { s with cr := (crStart i.crName i.crPort i.crConcurrency running).1 }
    else { s with cr := none }

/-- The options handed on to the running node, /repo/src/flared/flared.cc:367-432. -/
def applyIni (i : IniOption) (s : Settings) : Settings :=
  reloadCr i
    { s with
      readTimeout := millis i.netReadTimeout
      indexServers := i.indexServers
      reconInterval := i.reconInterval
      reconBwlimit := i.reconBwlimit
      replication := (replicationCast i.replicationType).getD s.replication
      poolSize := i.threadPoolSize
      maxTotalThreadQueue := i.maxTotalThreadQueue
      noreplyWindowLimit := i.noreplyWindowLimit
      watch := if i.watchEnabled then some i.watchInterval else none
      watchWarn := i.watchWarn
      watchPingNg := i.watchPingNg }

/-- `flared::reload`, /repo/src/flared/flared.cc:361-437, with the file (`none`: it cannot be opened or
read): whether the node reports success, and the node afterwards. -/
def reloadNode (file : Option Given) (n : NodeRun) : Bool × NodeRun :=
  match file with
  | none => (false, n)
  | some g =>
    match reloadIni g n.ini with
    | (false, i) => (false, { n with ini := i })
    | (true, i) => (true, ⟨i, applyIni i n.set⟩)

/-- A node that reads its file again and again. -/
def reloadAll : List (Option Given) → NodeRun → NodeRun
  | [], n => n
  | f :: fs, n => reloadAll fs (reloadNode f n).2

/-! ### The signal -/

/-- The file, the flag of the signal handler and the main loop (/repo/src/flared/flared.cc:50, 70-76, 306-332). -/
structure HupState where
  /-- how often the file has been changed -/
  file : Nat := 0
  /-- `reload_request` -/
  flag : Bool := false
  /-- the main loop is in `reload` and has read the file -/
  busy : Bool := false
  /-- the version of the file that was read last -/
  loaded : Nat := 0
  deriving DecidableEq, Repr

inductive HupEvent where
  /-- the file is changed -/
  | edit
  /-- SIGHUP -/
  | hup
  /-- the main loop looks at the flag and, when it is set, reads the file -/
  | look
  /-- `reload` returns and the flag is cleared -/
  | finish
  deriving DecidableEq, Repr

def hupStep (s : HupState) : HupEvent → HupState
  | .edit => { s with file := s.file + 1 }
  | .hup => { s with flag := true }
  | .look => if s.flag && !s.busy then { s with busy := true, loaded := s.file } else s
  | .finish => if s.busy then { s with busy := false, flag := false } else s

def hupRun (s : HupState) (es : List HupEvent) : HupState := es.foldl hupStep s

/-! ### The index server -/

/-- The options that an index server reads again, /repo/src/flarei/ini_option.cc:296-329. -/
structure IndexGiven where
  logFacility : Option Bytes := none
  maxConnection : Option Int := none
  monitorThreshold : Option Int := none
  monitorInterval : Option Int := none
  monitorReadTimeout : Option Int := none
  netReadTimeout : Option Int := none
  threadPoolSize : Option Int := none
  deriving DecidableEq, Repr

structure IndexIni where
  logFacility : Bytes
  maxConnection : Nat
  monitorThreshold : Int
  monitorInterval : Int
  monitorReadTimeout : Int
  netReadTimeout : Int
  threadPoolSize : Int
  deriving DecidableEq, Repr

structure IndexSettings where
  monitorThreshold : Int
  monitorInterval : Int
  monitorReadTimeout : Int
  readTimeout : Option Int
  /-- the pool for requests, and the pool for everything else -/
  reqPool : Int
  otherPool : Int
  deriving DecidableEq, Repr

structure IndexRun where
  ini : IndexIni
  set : IndexSettings
  deriving DecidableEq, Repr

/-- `flarei::reload`, /repo/src/flarei/flarei.cc:343-370, /repo/src/flarei/ini_option.cc:257-338. -/
def reloadIndex (file : Option IndexGiven) (n : IndexRun) : Bool × IndexRun :=
  match file with
  | none => (false, n)
  | some g =>
    let i : IndexIni :=
      { logFacility := g.logFacility.getD n.ini.logFacility
        maxConnection := (g.maxConnection.map toUInt32).getD n.ini.maxConnection
        monitorThreshold := g.monitorThreshold.getD n.ini.monitorThreshold
        monitorInterval := g.monitorInterval.getD n.ini.monitorInterval
        monitorReadTimeout := g.monitorReadTimeout.getD n.ini.monitorReadTimeout
        netReadTimeout := g.netReadTimeout.getD n.ini.netReadTimeout
        threadPoolSize := g.threadPoolSize.getD n.ini.threadPoolSize }
    (true,
      ⟨i,
        { n.set with
          monitorThreshold := i.monitorThreshold
          monitorInterval := i.monitorInterval
          monitorReadTimeout := i.monitorReadTimeout
          readTimeout := millis i.netReadTimeout
          reqPool := i.threadPoolSize }⟩)

end Flare
