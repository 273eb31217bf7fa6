import Verif.Base.Bytes

/-!
# Model of `python/pyoprf/multiplexer.py`: `Peer.read` and `Multiplexer.gather`

The environment is given by arguments: what every peer sends until it closes the connection, how `recv` cuts it into pieces
and when it raises, the numbers of pending bytes and the sets of ready descriptors that `select` returns. Exceptions are the
outcome `raised`; a schedule that ends before `gather` does gives `waiting`. Printing is left out. The callback `proc` has
no side effects. An absent callback is one that accepts every packet as it is.
-/

namespace Verif.Mux

/-- Outcome of Python code. -/
inductive Out (α : Type)
  | ret (a : α)
  | raised
  | waiting

instance : Monad Out where
  pure := .ret
  bind x f := match x with
    | .ret a => f a
    | .raised => .raised
    | .waiting => .waiting

/-- A connection: `inbox` are the bytes that have not been received yet, until the other end closes it; every element of
`cuts` is for one call of `recv`, `none` for an exception (timeout, TLS error) and `some c` for at most `c + 1` bytes. -/
structure Sock where
  fileno : Int
  connected : Bool
  inbox : Bytes
  cuts : List (Option ℕ)

/-- `fd.recv(k)`: at least one byte, except at the end of the stream. -/
def recv (k : ℕ) (s : Sock) : Out (Bytes × Sock) :=
  match s.cuts with
  | [] => .ret (s.inbox.take k, { s with inbox := s.inbox.drop k })
  | none :: _ => .raised
  | some c :: cs => .ret (s.inbox.take (min (c + 1) k), { s with inbox := s.inbox.drop (min (c + 1) k), cuts := cs })

/-- The loop of `Peer.read`, multiplexer.py:51-53, with `todo = size - read`; `got` is `b''.join(res)`. The last component
tells whether the last piece was empty. Every iteration but the last reads something, so `fuel ≥ todo` is enough. -/
def readLoop : (fuel todo : ℕ) → (got : Bytes) → Sock → Out (Bytes × Sock × Bool)
  | 0, _, got, s => .ret (got, s, false)
  | fuel + 1, todo, got, s =>
    if todo = 0 then .ret (got, s, false)
    else do
      let (data, s) ← recv todo s
      if data.length = 0 then .ret (got, s, true)
      else readLoop fuel (todo - data.length) (got ++ data) s

/-- `Peer.read`, multiplexer.py:45-58; `res[-1]` raises if nothing was to be read. -/
def read (size : ℕ) (s : Sock) : Out (Bytes × Sock) :=
  if ¬ s.connected then .raised
  else if size = 0 then .raised
  else do
    let (pkt, s, eof) ← readLoop size size [] s
    .ret (pkt, if eof && decide (pkt.length < size) then { s with connected := false } else s)

/-- `b'\x00\x04fail'` -/
def failMsg : Bytes := [0, 4, 102, 97, 105, 108]

/-- The connections and `responses`; `log` records the packets read, in order, with the index of the peer. -/
structure St (V : Type) where
  socks : List Sock
  resp : List (ℕ × Option V)
  log : List (ℕ × Bytes)

variable {V : Type}

/-- `idx in responses`, `responses[idx]` -/
def St.get (s : St V) (i : ℕ) : Option (Option V) := s.resp.lookup i

/-- `peers[idx].read(size)` -/
def readAt (size i : ℕ) (s : St V) : Out (Bytes × St V) :=
  match s.socks[i]? with
  | none => .raised
  | some k => do
    let (pkt, k) ← read size k
    .ret (pkt, { s with socks := s.socks.set i k, log := s.log ++ [(i, pkt)] })

/-- Result of the callback: a value, `None` or an exception. -/
abbrev Proc (V : Type) := Bytes → Out (Option V)

/-- One iteration of the first loop, multiplexer.py:113-121. -/
def early (proc : Proc V) (size : ℕ) (pending : ℕ → ℕ) (s : St V) (i : ℕ) : Out (St V) :=
  if pending i = size then do
    let (pkt, s) ← readAt size i s
    if pkt = failMsg then .ret { s with resp := (i, none) :: s.resp }
    else do
      let v ← proc pkt
      .ret { s with resp := (i, v) :: s.resp }
  else .ret s

/-- The dictionary of line 127, in the order of insertion. -/
def fdsOf (s : St V) : List (Int × ℕ) :=
  (s.socks.zipIdx.filter fun x => (s.get x.2).isNone && decide (0 ≤ x.1.fileno)).map fun x => (x.1.fileno, x.2)

/-- One iteration of the loop over the ready descriptors, multiplexer.py:134-146; a later entry of the dictionary replaces
an earlier one with the same descriptor. -/
def ready (proc : Proc V) (size : ℕ) (fds : List (Int × ℕ)) (s : St V) (fd : Int) : Out (St V) :=
  match fds.reverse.lookup fd with
  | none => .raised
  | some i =>
    if (s.get i).isSome then .ret s
    else do
      let (pkt, s) ← readAt size i s
      if pkt = failMsg then .ret { s with resp := (i, none) :: s.resp }
      else do
        let v ← proc pkt
        match v with
        | none => .ret s
        | some v => .ret { s with resp := (i, some v) :: s.resp }

/-- The loop, multiplexer.py:126-146, with the results of `select`. -/
def wait (proc : Proc V) (size n : ℕ) : (sched : List (List Int)) → St V → Out (St V)
  | sched, s =>
    if n ≤ s.resp.length then .ret s
    else if fdsOf s = [] then .raised
    else
      match sched with
      | [] => .waiting
      | r :: sched => do
        let s' ← r.foldlM (ready proc size (fdsOf s)) s
        wait proc size n sched s'

/-- The end, multiplexer.py:147-152; `hashable` tells which values can be members of a set. -/
def collect (hashable : V → Bool) (count : ℕ) (s : St V) : Out (List (Option V)) :=
  if s.resp.any fun x => match x.2 with | some v => !hashable v | none => false then .raised
  else if s.resp ≠ [] ∧ s.resp.all fun x => x.2.isNone then .raised
  else .ret ((List.range count).map fun i => (s.get i).join)

/-- `Multiplexer.gather`, multiplexer.py:108-152: the result and the last state. -/
def gather (proc : Proc V) (hashable : V → Bool) (size : ℕ) (n : Option ℕ) (pending : ℕ → ℕ) (sched : List (List Int))
    (socks : List Sock) : Out (List (Option V) × St V) := do
  let s ← (List.range socks.length).foldlM (early proc size pending) ⟨socks, [], []⟩
  let s ← wait proc size (n.getD socks.length) sched s
  let res ← collect hashable socks.length s
  .ret (res, s)

end Verif.Mux
