import Verif.Spec.Net
import Verif.Spec.Sharing

/-!
# The setup of a run in which all parties follow the protocol

All parties start as in the driver `src/tests/tp-dkg.c`: `tpdkg_start_tp` and `tpdkg_tp_set_bufs` at the trusted party,
`tpdkg_start_peer` and `tpdkg_peer_set_bufs` at every peer.
-/

namespace Verif.TpDkg

open Wire Spec

/-- The arguments of the calls and what the parties draw from their environments. The contexts `tp0` and `peer0 i` are not
yet initialised; their lists are the buffers that the callers pass to the `set_bufs` functions. -/
structure Setup where
  n : UInt8
  t : UInt8
  name : Bytes
  sid : B32
  /-- the seed of the signing key of the trusted party -/
  seed : B32
  eps : UInt64
  msg0 : Bytes
  tp0 : TP
  tpEnv : PEnv
  peer0 : ℕ → PeerState
  env : ℕ → PEnv
  /-- the seeds of the long-term signing keys of the peers -/
  lt : ℕ → B32

namespace Setup

variable [Signing] [Hashes]

/-- The long-term public keys of the peers, as known to the trusted party. -/
def ltPks (S : Setup) : List B32 := (List.range S.n.toNat).map fun i => Signing.pkOf (S.lt i)

/-- The peers `i`, …, `i+k-1` start with the message `m0`. -/
def startPeers (S : Setup) (m0 : Bytes) : (k i : ℕ) → C (List Int × List PeerState)
  | 0, _ => .ok ([], [])
  | k + 1, i => do
    let p := S.peer0 i
    let e := S.env i
    let (r, c) ← startPeer p (e.clock p.ticks) S.eps e.log (Signing.skOf (S.lt i)) m0
    let c ← peerSetBufs c p.sigPks p.noisePks p.outs p.ins p.shares p.xshares p.commitments p.complaints p.mine p.lastTs
    let (rs, cs) ← S.startPeers m0 k (i + 1)
    .ok (r :: rs, c :: cs)

/-- All parties start. -/
def start (S : Setup) : C Net := do
  let (r, tp, m0) ← startTp S.tp0 (S.tpEnv.clock S.tp0.ticks) S.eps S.n S.t S.name S.sid S.seed S.msg0
  let tp ← tpSetBufs tp (S.tpEnv.clock tp.ticks) S.tp0.commitments S.tp0.complaints S.tp0.encShares S.tp0.cheaters
    S.tp0.cheaterMax S.tp0.sigPks S.ltPks S.tp0.lastTs
  let (rs, peers) ← S.startPeers m0 S.n.toNat 0
  .ok ⟨tp, peers, [], r :: rs⟩

end Setup

/-- A clock that never goes back and shows only times of the window `[lo, lo + eps]`. -/
structure GoodClock (lo : ℕ) (eps : UInt64) (clock : ℕ → UInt64) : Prop where
  mono : ∀ a b, a ≤ b → clock a ≤ clock b
  lo_le : ∀ k, lo ≤ (clock k).toNat
  le_hi : ∀ k, (clock k).toNat ≤ lo + eps.toNat

/-- Admissible parameters, buffers of the documented sizes, clocks within a window of `ts_epsilon` seconds, and random
values as drawn by the library. The Noise keys of the peers are pairwise distinct. `window` and `no_wrap` exclude times
near 0 and near `2^64`. -/
structure Setup.Fair [Signing] [NoiseCrypto] (S : Setup) (lo : ℕ) : Prop where
  t_ge : 2 ≤ S.t.toNat
  t_lt : S.t.toNat < S.n.toNat
  n_le : S.n.toNat ≤ 128
  name_pos : 1 ≤ S.name.length
  name_le : S.name.length ≤ 1024
  msg0 : S.msg0.length = msg0Size
  tp_lastTs : S.tp0.lastTs.length = S.n.toNat
  tp_sigPks : S.tp0.sigPks.length = S.n.toNat
  tp_commitments : S.tp0.commitments.length = S.n.toNat * S.t.toNat
  tp_complaints : S.tp0.complaints.length = S.n.toNat * S.n.toNat
  tp_encShares : S.tp0.encShares.length = S.n.toNat * S.n.toNat * msg8Size
  tp_cheaters : S.tp0.cheaterMax ≤ S.tp0.cheaters.length
  lastTs : ∀ i < S.n.toNat, (S.peer0 i).lastTs.length = S.n.toNat
  sigPks : ∀ i < S.n.toNat, (S.peer0 i).sigPks.length = S.n.toNat
  noisePks : ∀ i < S.n.toNat, (S.peer0 i).noisePks.length = S.n.toNat
  outs : ∀ i < S.n.toNat, (S.peer0 i).outs.length = S.n.toNat
  ins : ∀ i < S.n.toNat, (S.peer0 i).ins.length = S.n.toNat
  shares : ∀ i < S.n.toNat, (S.peer0 i).shares.length = S.n.toNat
  xshares : ∀ i < S.n.toNat, (S.peer0 i).xshares.length = S.n.toNat
  mine : ∀ i < S.n.toNat, (S.peer0 i).mine.length = S.n.toNat
  commitments : ∀ i < S.n.toNat, (S.peer0 i).commitments.length = S.n.toNat * S.t.toNat
  complaints : ∀ i < S.n.toNat, (S.peer0 i).complaints.length = S.n.toNat * S.n.toNat
  window : S.eps.toNat ≤ lo
  lo_pos : 0 < lo
  no_wrap : lo + 2 * S.eps.toNat < 2 ^ 64
  tpClock : GoodClock lo S.eps S.tpEnv.clock
  clock : ∀ i < S.n.toNat, GoodClock lo S.eps (S.env i).clock
  mlock : ∀ i < S.n.toNat, (S.env i).mlock = true
  coeff : ∀ i < S.n.toNat, ∀ k, RandomScalar ((S.env i).rnd.coeff k)
  keys : ∀ i < S.n.toNat, ∀ j < S.n.toNat,
    NoiseCrypto.xbase (S.env i).rnd.noiseSk = NoiseCrypto.xbase (S.env j).rnd.noiseSk → i = j

/-- The trusted party starts the time checks with its own clock (`tpdkg_tp_set_bufs`, tp-dkg.c:621-622). No clock of a peer
is behind this time. -/
structure Setup.Honest [Signing] [NoiseCrypto] (S : Setup) (lo : ℕ) : Prop extends S.Fair lo where
  later : ∀ i < S.n.toNat, ∀ k, S.tpEnv.clock (S.tp0.ticks + 1) ≤ (S.env i).clock k

end Verif.TpDkg
