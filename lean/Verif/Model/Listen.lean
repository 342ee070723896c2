import Verif.Model.Bytes

/-! Model of the listening sockets of both servers, /repo/src/lib/server.cc: `listen` for a port (:131-184)
and for a Unix domain socket (:190-250), `close` (:67-126), `wait` (:256-362) and what `listen` calls
(:369-424).

Simplifications.
* Every system call can fail for reasons of its own, which the environment decides.  A bind to a path that
  exists, or to a port that is taken, always fails.  `close` and `unlink` do not fail for reasons of their
  own.
* The files of the model are the directory entries at the paths used; `unlink` of a path that is not there
  does nothing.  Nobody else makes or removes files.
* Only the epoll variant.  A failed `accept` is not retried (the retries of :305-318 are one call). -/
namespace Flare

/-- `server::max_listen_socket`, /repo/src/lib/server.h:68. -/
def maxListenSocket : Nat := 256

/-- Bytes of a path that fit `sun_path` before its final NUL (`sizeof(addr.sun_path)-1`). -/
def sunPath : Nat := 107

/-- Bytes of a path in a `struct sockaddr`, which has no room for more. -/
def saData : Nat := 14

inductive Addr where
  | port (p : Nat)
  | path (b : Bytes)
  deriving DecidableEq, Repr

structure Listener where
  /-- Descriptors that are open, newest first. -/
  fds : List Nat := []
  /-- The next descriptor. -/
  next : Nat := 0
  /-- `_listen_socket[0.._listen_socket_index)`, with what each is bound to. -/
  socks : List (Nat × Addr) := []
  epoll : Option Nat := none
  /-- The sockets in the epoll set. -/
  polled : List Nat := []
  /-- Ports that are taken, by this process or another. -/
  ports : List Nat := []
  /-- Directory entries. -/
  files : List Bytes := []
  deriving DecidableEq, Repr

/-- Which calls work. -/
structure ListenEnv where
  socket : Bool := true
  opts : Bool := true
  bind : Bool := true
  listen : Bool := true
  chmod : Bool := true
  epollCreate : Bool := true
  epollCtl : Bool := true
  deriving DecidableEq, Repr

/-- `_add_epoll_socket`, /repo/src/lib/server.cc:402-424. -/
def Listener.poll (s : Listener) (e : ListenEnv) (fd : Nat) : Listener × Bool :=
  match s.epoll with
  | some _ => if e.epollCtl then ({ s with polled := s.polled ++ [fd] }, true) else (s, false)
  | none =>
    if e.epollCreate then
      let s := { s with epoll := some s.next, fds := s.next :: s.fds, next := s.next + 1 }
      if e.epollCtl then ({ s with polled := s.polled ++ [fd] }, true) else (s, false)
    else (s, false)

/-- What `bind` makes of an address: for a path the bytes that fit, up to the first NUL
(`strncpy`, :213). -/
def bound : Addr → Addr
  | .port p => .port p
  | .path b => .path ((b.takeWhile (· ≠ 0)).take sunPath)

def Listener.taken (s : Listener) : Addr → Bool
  | .port p => s.ports.contains p
  | .path b => s.files.contains b

def Listener.occupy (s : Listener) : Addr → Listener
  | .port p => { s with ports := p :: s.ports }
  | .path b => { s with files := b :: s.files }

/-- The end of a socket: its port is free again; the entry of a path stays. -/
def Listener.vacate (s : Listener) : Addr → Listener
  | .port p => { s with ports := s.ports.erase p }
  | .path _ => s

def Listener.closeFd (s : Listener) (fd : Nat) : Listener := { s with fds := s.fds.erase fd }

/-- `listen`, for a port and for a path. -/
def Listener.listen (s : Listener) (e : ListenEnv) (a : Addr) : Listener × Bool :=
  if s.socks.length ≥ maxListenSocket then (s, false)
  else if !e.socket then (s, false)
  else
    let fd := s.next
    let s1 := { s with fds := fd :: s.fds, next := fd + 1 }
    if !e.opts then (s1.closeFd fd, false)
    else if !e.bind || s.taken (bound a) then (s1.closeFd fd, false)
    else
      let s2 := s1.occupy (bound a)
      if !e.listen then ((s2.closeFd fd).vacate (bound a), false)
      else
        match a with
        | .path _ =>
          if !e.chmod then ((s2.closeFd fd).vacate (bound a), false)
          else Listener.poll { s2 with socks := s2.socks ++ [(fd, bound a)] } e fd
        | .port _ => Listener.poll { s2 with socks := s2.socks ++ [(fd, bound a)] } e fd

/-- The end of one socket in `close`, :91-121.  `getsockname` writes at most `sizeof(struct sockaddr)`
bytes, so a path of 14 bytes or more has no NUL at its end, and `unlink` reads on beyond the variable:
`none`, undefined behaviour. -/
def Listener.closeOne (s : Listener) (x : Nat × Addr) : Option Listener :=
  let s := (s.closeFd x.1).vacate x.2
  match x.2 with
  | .port _ => some s
  | .path b => if b.length < saData then some { s with files := s.files.erase b } else none

def Listener.closeAll : List (Nat × Addr) → Listener → Option Listener
  | [], s => some s
  | x :: l, s => (s.closeOne x).bind (Listener.closeAll l)

/-- `close`.  The epoll set goes with its descriptor. -/
def Listener.close (s : Listener) : Option Listener :=
  let s := match s.epoll with
    | some fd => { s.closeFd fd with epoll := none, polled := [] }
    | none => s
  (Listener.closeAll s.socks s).map fun s => { s with socks := [] }

/-- The process ends without `close`: the descriptors and ports go, the files stay. -/
def Listener.die (s : Listener) : Listener :=
  { next := s.next, files := s.files,
    ports := s.ports.filter fun p => !s.socks.any fun x => x.2 == .port p }

/-! ### Accepting

`Model/Accept` follows the connections from the queue of the kernel to their threads; here it is about the
descriptors and the addresses only. -/

/-- What happens at one socket that is ready: `accept` fails; a connection comes and one of the calls that
prepare it fails; or it comes and is prepared. -/
inductive AcceptAns where
  | none
  | bad
  | good
  deriving DecidableEq, Repr

/-- The loop of `wait` over the sockets that are ready, :285-359: the connections that are handed on, and
the descriptors made that are closed again; `none`: undefined behaviour.  The address of a connection is a
`struct sockaddr` (16 bytes), and a connection on a Unix domain socket is constructed from it as from a
`struct sockaddr_un` (110 bytes), :300-302 and :348. -/
def waitAll : List (Addr × AcceptAns) → Nat → Option (List Nat × List Nat)
  | [], _ => some ([], [])
  | (_, .none) :: _, _ => some ([], [])
  | (_, .bad) :: _, fd => some ([], [fd])
  | (.path _, .good) :: _, _ => Option.none
  | (.port _, .good) :: l, fd => (waitAll l (fd + 1)).map fun r => (fd :: r.1, r.2)

end Flare
