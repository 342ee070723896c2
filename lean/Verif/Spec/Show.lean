import Verif.Model.Show
import Verif.Spec.Config

/-! What a client makes of the answer to `show variables`. -/
namespace Flare

/-- The lines up to `END`, without their ends, and what follows. -/
def readShow : Nat → Bytes → Option (List Bytes × Bytes)
  | 0, _ => none
  | n + 1, s =>
    match readLine s with
    | none => none
    | some (l, s) => if l = ascii "END\n" then some ([], s) else (readShow n s).map fun x => (l.dropLast :: x.1, x.2)

/-- A line is a name, a colon, blanks and a value. -/
def optionLine (l : Bytes) : Bytes × Bytes :=
  let name := l.takeWhile (· ≠ 58)
  (name, (l.drop (name.length + 1)).dropWhile (· = 32))

/-- The value that is shown under a name. -/
def optionOf (ls : List Bytes) (name : String) : Option Bytes := (ls.map optionLine).lookup (ascii name)

/-- A value that fits into a line. -/
def ShowVal (v : Bytes) : Prop := (∀ c ∈ v, c ≠ 10 ∧ c ≠ 0) ∧ v.head? ≠ some 32

/-- An index server as it can be written into a file. -/
def IndexAddr.Plain (a : IndexAddr) : Prop :=
  a.name ≠ [] ∧ (∀ c ∈ a.name, c ∉ ([0, 9, 10, 11, 12, 13, 32, 44, 58] : Bytes)) ∧ 0 ≤ a.port ∧ a.port < 2147483648

/-- The texts among the options of a node fit into lines. -/
def NodeFixed.Plain (f : NodeFixed) : Prop :=
  ShowVal f.configPath ∧ ShowVal f.pidPath ∧ ShowVal f.dataDir ∧ ShowVal f.serverName ∧ ShowVal f.serverSocket ∧
    ShowVal f.compress ∧ ShowVal f.storageType

def IniOption.Plain (i : IniOption) : Prop :=
  (∀ a ∈ i.indexServers, a.Plain) ∧ ShowVal i.replicationType ∧ ShowVal i.crName ∧ ShowVal i.crMode

def IndexFixed.Plain (f : IndexFixed) : Prop :=
  ShowVal f.configPath ∧ ShowVal f.pidPath ∧ ShowVal f.dataDir ∧ ShowVal f.serverName ∧ ShowVal f.serverSocket ∧
    ShowVal f.parting.type ∧ ShowVal f.parting.hash

/-- The options of a node by their names. -/
def nodeOptions (f : NodeFixed) (i : IniOption) : List (Bytes × Bytes) :=
  [(ascii "back_log", decimalInt f.backLog),
    (ascii "config_path", f.configPath),
    (ascii "pid_path", f.pidPath),
    (ascii "daemonize", boolText f.daemonize),
    (ascii "data_dir", f.dataDir),
    (ascii "index_server(s)", serversText i.indexServers),
    (ascii "max_connection", decimal i.maxConnection),
    (ascii "mutex_slot", decimalInt f.mutexSlot),
    (ascii "noreply_window_limit", decimalInt i.noreplyWindowLimit),
    (ascii "net_read_timeout", decimalInt i.netReadTimeout),
    (ascii "proxy_concurrency", decimalInt i.proxyConcurrency),
    (ascii "reconstruction_interval", decimalInt i.reconInterval),
    (ascii "reconstruction_bwlimit", decimalInt i.reconBwlimit),
    (ascii "replication_type", i.replicationType),
    (ascii "server_name", f.serverName),
    (ascii "server_port", decimalInt f.serverPort),
    (ascii "server_socket", f.serverSocket),
    (ascii "stack_size", decimalInt f.stackSize),
    (ascii "storage_ap", decimal f.storageAp),
    (ascii "storage_bucket_size", decimal f.bucketSize),
    (ascii "storage_cache_size", decimalInt f.cacheSize),
    (ascii "storage_compress", f.compress),
    (ascii "storage_large", boolText f.large),
    (ascii "storage_lmemb", decimalInt f.lmemb),
    (ascii "storage_nmemb", decimalInt f.nmemb),
    (ascii "storage_dfunit", decimalInt f.dfunit),
    (ascii "storage_type", f.storageType),
    (ascii "thread_pool_size", decimalInt i.threadPoolSize),
    (ascii "proxy_prior_netmask", decimal f.priorNetmask),
    (ascii "max_total_thread_queue", decimal i.maxTotalThreadQueue),
    (ascii "time_watcher_enabled", boolText i.watchEnabled),
    (ascii "time_watcher_polling_interval_msec", decimal i.watchInterval),
    (ascii "storage_access_watch_threshold_warn_msec", decimal i.watchWarn),
    (ascii "storage_access_watch_threshold_ping_ng_msec", decimal i.watchPingNg),
    (ascii "cluster_replication", boolDigit i.crEnabled),
    (ascii "cluster_replication_server_name", i.crName),
    (ascii "cluster_replication_server_port", decimalInt i.crPort),
    (ascii "cluster_replication_concurrency", decimalInt i.crConcurrency),
    (ascii "cluster_replication_mode", i.crMode)]

/-- The options of an index server by their names. -/
def indexOptions (f : IndexFixed) (i : IndexIni) : List (Bytes × Bytes) :=
  [(ascii "config_path", f.configPath),
    (ascii "pid_path", f.pidPath),
    (ascii "daemonize", boolText f.daemonize),
    (ascii "data_dir", f.dataDir),
    (ascii "max_connection", decimal i.maxConnection),
    (ascii "monitor_threshold", decimalInt i.monitorThreshold),
    (ascii "monitor_interval", decimalInt i.monitorInterval),
    (ascii "monitor_read_timeout", decimalInt i.monitorReadTimeout),
    (ascii "net_read_timeout", decimalInt i.netReadTimeout),
    (ascii "partition_modular_hint", printInt f.parting.hint),
    (ascii "partition_modular_virtual", printInt f.parting.virtual_),
    (ascii "partition_size", printInt f.parting.size),
    (ascii "partition_type", f.parting.type),
    (ascii "key_hash_algorithm", f.parting.hash),
    (ascii "server_name", f.serverName),
    (ascii "server_port", decimalInt f.serverPort),
    (ascii "server_socket", f.serverSocket),
    (ascii "stack_size", decimalInt f.stackSize),
    (ascii "thread_pool_size", decimalInt i.threadPoolSize)]

end Flare
