import Verif.Spec.Peer

/-!
# A run of all parties

The trusted party and `n` peers are called in turn, as in the driver `src/tests/tp-dkg.c:467-530`: the trusted party gets
the concatenated answers of the peers, and every peer gets the part of the answer that `tpdkg_tp_peer_msg` announces.
-/

namespace Verif.TpDkg

open Wire Spec.Wire

/-- What a party draws from its environment; `junk` is the content of its output buffer before a call. -/
structure PEnv where
  clock : ℕ → UInt64
  log : Bool
  mlock : Bool
  scratch : B32
  rnd : Rnd
  junk : ℕ → UInt8

/-- An output buffer of `len` bytes. -/
def PEnv.buf (e : PEnv) (len : ℕ) : Bytes := (List.range len).map e.junk

/-- The trusted party, the peers, the bytes on their way to the trusted party and the results of all calls so far. -/
structure Net where
  tp : TP
  peers : List PeerState
  wire : Bytes
  results : List Int

/-- The part of the output of the trusted party for peer `i`. -/
def delivered (tp : TP) (out : Bytes) (i : ℕ) : Bytes :=
  match tpPeerMsg tp out.length (UInt8.ofNat i) with
  | (_, some (some off, len)) => slice out off len
  | _ => []

variable [Signing] [Hashes] [NoiseCrypto] [Mac] (G : Type) [Ristretto G]

/-- Calls of the peers, from peer `i` on, with the inputs `msg`: results, new states and concatenated outputs. -/
def callPeers (env : ℕ → PEnv) (msg : ℕ → Bytes) : (i : ℕ) → List PeerState → C (List Int × List PeerState × Bytes)
  | _, [] => .ok ([], [], [])
  | i, p :: ps => do
    let e := env i
    let (r, p, o) ← peerNext G e.clock e.log e.mlock e.scratch e.rnd p (msg i) (e.buf (peerOutputSize p))
    let (rs, ps, w) ← callPeers env msg (i + 1) ps
    .ok (r :: rs, p :: ps, o ++ w)

/-- The trusted party handles the answers and every peer handles its part of the output. -/
def Net.round (tpEnv : PEnv) (env : ℕ → PEnv) (s : Net) : C Net := do
  let (r, tp, out) ← tpNext G tpEnv.clock tpEnv.log tpEnv.scratch s.tp s.wire (tpEnv.buf (tpOutputSize s.tp))
  let (rs, peers, wire) ← callPeers G env (delivered tp out) 0 s.peers
  .ok ⟨tp, peers, wire, s.results ++ r :: rs⟩

/-- Every peer is called without a message. -/
def Net.idle (env : ℕ → PEnv) (s : Net) : C Net := do
  let (rs, peers, wire) ← callPeers G env (fun _ => []) 0 s.peers
  .ok { s with peers, wire := s.wire ++ wire, results := s.results ++ rs }

/-- `k` rounds. -/
def Net.rounds (tpEnv : PEnv) (env : ℕ → PEnv) : (k : ℕ) → Net → C Net
  | 0, s => .ok s
  | k + 1, s => do
    let s ← Net.rounds tpEnv env k s
    s.round G tpEnv env

/-- The schedule of a run without complaints. After the complaints the peers send the hash of the transcript without
having received another message. -/
def Net.run (tpEnv : PEnv) (env : ℕ → PEnv) (s : Net) : C Net := do
  let s ← s.rounds G tpEnv env 7
  let s ← s.idle G env
  s.rounds G tpEnv env 2

end Verif.TpDkg
