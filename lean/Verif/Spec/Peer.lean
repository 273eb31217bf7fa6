import Verif.Model.Peer
import Verif.Spec.Tp

/-!
# Vocabulary for the properties of the peers
-/

namespace Verif.TpDkg

open Wire Spec.Wire

/-- A context set up by `tpdkg_start_peer` and `tpdkg_peer_set_bufs` with buffers of the documented sizes. -/
structure PWF (c : PeerState) : Prop where
  t_pos : 2 ≤ c.t.toNat
  t_lt : c.t.toNat < c.n.toNat
  n_le : c.n.toNat ≤ 128
  lastTs : c.lastTs.length = c.n.toNat
  sigPks : c.sigPks.length = c.n.toNat
  noisePks : c.noisePks.length = c.n.toNat
  outs : c.outs.length = c.n.toNat
  ins : c.ins.length = c.n.toNat
  shares : c.shares.length = c.n.toNat
  xshares : c.xshares.length = c.n.toNat
  mine : c.mine.length = c.n.toNat
  commitments : c.commitments.length = c.n.toNat * c.t.toNat
  complaints : c.complaints.length = c.n.toNat * c.n.toNat

/-- The arguments of a call of `tpdkg_peer_next` and what it draws from its environment. -/
structure PCall where
  log : Bool
  mlock : Bool
  scratch : B32
  rnd : Rnd
  input : Bytes
  out : Bytes

/-- The recorded complaints. -/
def PeerState.known (c : PeerState) : List UInt16 := c.complaints.take c.complaintsLen.toNat

/-- The recorded complaints about this peer. -/
def PeerState.against (c : PeerState) : List UInt8 := c.mine.take c.myLen.toNat

/-- The steps of the trusted party that send a broadcast, which are the steps of a peer that receive it. -/
def hears (step : ℕ) : Bool := step == 1 || step == 4 || step == 6

variable [Signing] [Hashes] [NoiseCrypto] [Mac] (G : Type) [Ristretto G]

/-- One call. -/
def PCall.run (clock : ℕ → UInt64) (c : PeerState) (a : PCall) : C (Int × PeerState × Bytes) :=
  peerNext G clock a.log a.mlock a.scratch a.rnd c a.input a.out

/-- Calls of `tpdkg_peer_next`: the results and the final state. -/
def peerCalls (clock : ℕ → UInt64) : (c : PeerState) → (calls : List PCall) → C (List Int × PeerState)
  | c, [] => .ok ([], c)
  | c, a :: calls => do
    let (r, c, _) ← a.run G clock c
    let (rs, c) ← peerCalls clock c calls
    .ok (r :: rs, c)

/-- The broadcasts received in these calls. -/
def heard (clock : ℕ → UInt64) : (c : PeerState) → (calls : List PCall) → List Bytes
  | _, [] => []
  | c, a :: calls => match a.run G clock c with
    | .ok (_, c', _) => (if hears c.step then [a.input] else []) ++ heard clock c' calls
    | .ub _ => []

/-- The broadcasts sent by the trusted party in these calls. -/
def said (clock : ℕ → UInt64) (log : Bool) (scratch : B32) : (c : TP) → (calls : List (Bytes × Bytes)) → List Bytes
  | _, [] => []
  | c, (input, out) :: calls => match tpNext G clock log scratch c input out with
    | .ok (_, c', o) => (if hears c.step then [o] else []) ++ said clock log scratch c' calls
    | .ub _ => []

end Verif.TpDkg
