import Verif.Model.Config
import Verif.Model.IndexStart

/-!
Model of `show variables`: what a node (/repo/src/flared/show_node.cc, /repo/src/flared/op_show_node.cc) and an index server
(/repo/src/flarei/op_show_index.cc) say about their options.

Simplifications:
* The options that only the start of a node sets are in a structure of their own; the others are those of Model/Config.
* The node is compiled without MySQL replication.
* The line of the request arrives as `readline` leaves it. -/
namespace Flare

/-- The options of a node that a reload does not deal with, /repo/src/flared/ini_option.h:134-184. -/
structure NodeFixed where
  backLog : Int := 30
  configPath : Bytes := []
  pidPath : Bytes := []
  daemonize : Bool := false
  dataDir : Bytes := []
  mutexSlot : Int := 64
  serverName : Bytes := []
  serverPort : Int := 12121
  serverSocket : Bytes := []
  stackSize : Int := 128
  storageAp : Nat := 4
  bucketSize : Nat := 131071
  cacheSize : Int := 65536
  compress : Bytes := []
  large : Bool := false
  lmemb : Int := 128
  nmemb : Int := 256
  dfunit : Int := 0
  storageType : Bytes := []
  priorNetmask : Nat := 0
  deriving DecidableEq, Repr

/-- `? "true" : "false"` -/
def boolText (b : Bool) : Bytes := if b then ascii "true" else ascii "false"

/-- A `bool` that is put into a stream. -/
def boolDigit (b : Bool) : Bytes := if b then [49] else [48]

def addrText (a : IndexAddr) : Bytes := a.name ++ 58 :: decimalInt a.port

/-- The loop of `index_servers_line`, /repo/src/flared/show_node.cc:100-105. -/
def moreServers : List IndexAddr → Bytes
  | [] => []
  | a :: l => 44 :: 32 :: addrText a ++ moreServers l

/-- `show_node::index_servers_line`, /repo/src/flared/show_node.cc:88-108, without what stands in front. -/
def serversText : List IndexAddr → Bytes
  | [] => []
  | a :: l => addrText a ++ moreServers l

/-- `show_node::lines`, /repo/src/flared/show_node.cc:36-86: what stands in front, and the value. -/
def showNodeLines (f : NodeFixed) (i : IniOption) : List (String × Bytes) :=
  [("back_log:               ", decimalInt f.backLog),
    ("config_path:            ", f.configPath),
    ("pid_path:               ", f.pidPath),
    ("daemonize:              ", boolText f.daemonize),
    ("data_dir:               ", f.dataDir),
    ("index_server(s):        ", serversText i.indexServers),
    ("max_connection:         ", decimal i.maxConnection),
    ("mutex_slot:             ", decimalInt f.mutexSlot),
    ("noreply_window_limit:   ", decimalInt i.noreplyWindowLimit),
    ("net_read_timeout:       ", decimalInt i.netReadTimeout),
    ("proxy_concurrency:      ", decimalInt i.proxyConcurrency),
    ("reconstruction_interval:", decimalInt i.reconInterval),
    ("reconstruction_bwlimit: ", decimalInt i.reconBwlimit),
    ("replication_type:       ", i.replicationType),
    ("server_name:            ", f.serverName),
    ("server_port:            ", decimalInt f.serverPort),
    ("server_socket:          ", f.serverSocket),
    ("stack_size:             ", decimalInt f.stackSize),
    ("storage_ap:             ", decimal f.storageAp),
    ("storage_bucket_size:    ", decimal f.bucketSize),
    ("storage_cache_size:     ", decimalInt f.cacheSize),
    ("storage_compress:       ", f.compress),
    ("storage_large:          ", boolText f.large),
    ("storage_lmemb:          ", decimalInt f.lmemb),
    ("storage_nmemb:          ", decimalInt f.nmemb),
    ("storage_dfunit:         ", decimalInt f.dfunit),
    ("storage_type:           ", f.storageType),
    ("thread_pool_size:       ", decimalInt i.threadPoolSize),
    ("proxy_prior_netmask:    ", decimal f.priorNetmask),
    ("max_total_thread_queue: ", decimal i.maxTotalThreadQueue),
    ("time_watcher_enabled:   ", boolText i.watchEnabled),
    ("time_watcher_polling_interval_msec: ", decimal i.watchInterval),
    ("storage_access_watch_threshold_warn_msec: ", decimal i.watchWarn),
    ("storage_access_watch_threshold_ping_ng_msec: ", decimal i.watchPingNg),
    ("cluster_replication:    ", boolDigit i.crEnabled),
    ("cluster_replication_server_name: ", i.crName),
    ("cluster_replication_server_port: ", decimalInt i.crPort),
    ("cluster_replication_concurrency: ", decimalInt i.crConcurrency),
    ("cluster_replication_mode: ", i.crMode)]

/-- The options of an index server that a reload does not deal with, /repo/src/flarei/ini_option.h:92-113. -/
structure IndexFixed where
  configPath : Bytes := []
  pidPath : Bytes := []
  daemonize : Bool := false
  dataDir : Bytes := []
  parting : Parting
  serverName : Bytes := []
  serverPort : Int := 12120
  serverSocket : Bytes := []
  stackSize : Int := 128
  deriving DecidableEq, Repr

/-- `op_show_index::_send_show_variables`, /repo/src/flarei/op_show_index.cc:77-102; strings are given as `c_str`. -/
def showIndexLines (f : IndexFixed) (i : IndexIni) : List (String × Bytes) :=
  [("config_path:              ", cstr f.configPath),
    ("pid_path:                 ", cstr f.pidPath),
    ("daemonize:                ", boolText f.daemonize),
    ("data_dir:                 ", cstr f.dataDir),
    ("max_connection:           ", decimal i.maxConnection),
    ("monitor_threshold:        ", decimalInt i.monitorThreshold),
    ("monitor_interval:         ", decimalInt i.monitorInterval),
    ("monitor_read_timeout:     ", decimalInt i.monitorReadTimeout),
    ("net_read_timeout:         ", decimalInt i.netReadTimeout),
    ("partition_modular_hint:   ", printInt f.parting.hint),
    ("partition_modular_virtual:", printInt f.parting.virtual_),
    ("partition_size:           ", printInt f.parting.size),
    ("partition_type:           ", cstr f.parting.type),
    ("key_hash_algorithm:       ", cstr f.parting.hash),
    ("server_name:              ", cstr f.serverName),
    ("server_port:              ", decimalInt f.serverPort),
    ("server_socket:            ", cstr f.serverSocket),
    ("stack_size:               ", decimalInt f.stackSize),
    ("thread_pool_size:         ", decimalInt i.threadPoolSize)]

/-- The loop over the lines, /repo/src/flared/op_show_node.cc:76-87: a line end between two lines. -/
def joinLines : List (String × Bytes) → Bytes
  | [] => []
  | [x] => ascii x.1 ++ x.2
  | x :: l => ascii x.1 ++ x.2 ++ crlf ++ joinLines l

/-- What is sent: `writeline` takes a C string and adds a line end, /repo/src/flared/op_show_node.cc:89; then `END`,
/repo/src/flared/op_show_node.cc:61-72. -/
def showBytes (l : List (String × Bytes)) : Bytes := cstr (joinLines l) ++ crlf ++ ascii "END" ++ crlf

/-- `op_show::_parse_text_server_parameters`, /repo/src/lib/op_show.cc:60-82: `n > 0` and the first word.  A refused request
is answered by an error elsewhere; `ub`: outside of the buffer. -/
def showAsked (p : Bytes) : Except Fault Bool :=
  match nextWord p (List.replicate 8192 0) with
  | none => .error .ub
  | some (n, q) => .ok (decide (0 < n) && cstr q == ascii "variables")

/-- The answer of a node to `show`; `none`: the request is refused. -/
def showNode (n : NodeRun) (f : NodeFixed) (p : Bytes) : Except Fault (Option Bytes) :=
  match showAsked p with
  | .error e => .error e
  | .ok false => .ok none
  | .ok true => .ok (some (showBytes (showNodeLines f n.ini)))

/-- The answer of an index server. -/
def showIndex (n : IndexRun) (f : IndexFixed) (p : Bytes) : Except Fault (Option Bytes) :=
  match showAsked p with
  | .error e => .error e
  | .ok false => .ok none
  | .ok true => .ok (some (showBytes (showIndexLines f n.ini)))

end Flare
