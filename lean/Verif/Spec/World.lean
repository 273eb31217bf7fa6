import Verif.Spec.Grounds
import Verif.Spec.Defence
import Verif.Spec.Honest

/-!
# One peer that follows the protocol, among others that need not

The trusted party and one peer are called in any order. The peer gets what `tpdkg_tp_peer_msg` announces for it, and its
messages reach the trusted party unchanged, at the place given by `tpdkg_tp_input_sizes`. The other parts of the input of the
trusted party are arbitrary: the other peers may send anything.
-/

set_option linter.unusedSectionVars false

namespace Verif.TpDkg

open Wire Spec.Wire Spec

/-- The trusted party, the peer, the bytes on their way to the peer, and those on their way to the trusted party. -/
structure Duo where
  tp : TP
  peer : PeerState
  inbox : Bytes
  sent : Bytes

/-- The part of peer `i` (from 0) in the input of the trusted party. -/
def partOf (c : TP) (input : Bytes) (i : ℕ) : Bytes :=
  match tpInputSizes c with
  | .ok (_, sizes) => slice input (sizes.take i).sum (sizes.getD i 0)
  | .ub _ => []

variable [Signing] [Hashes] [NoiseCrypto] [Mac] (G : Type) [Ristretto G]

/-- The start as in `src/tests/tp-dkg.c`. The trusted party starts its time checks at `t0`. -/
inductive Duo.Start (t0 eps : UInt64) (i : ℕ) : Duo → Prop
  | mk (ctx c : TP) (now : UInt64) (n t : UInt8) (name : Bytes) (sid seed : B32) (msg0 m : Bytes)
    (commitments : List B32) (complaints : List UInt16) (encShares : Bytes) (cheaters : List Cheater) (cheaterMax : ℕ)
    (sigPks ltPks : List B32) (lastTs : List UInt64) (tp : TP)
    (ctx' q : PeerState) (now' eps' : UInt64) (log : Bool) (ltSk : B64)
    (sigPks' noisePks : List B32) (outs ins : List (Ptr Noise.Session)) (shares xshares : List Share)
    (commitments' : List B32) (complaints' : List UInt16) (mine : List UInt8) (lastTs' : List UInt64) (p : PeerState)
    (hi : i < n.toNat)
    (h1 : startTp ctx now eps n t name sid seed msg0 = .ok (0, c, m))
    (h2 : tpSetBufs c t0 commitments complaints encShares cheaters cheaterMax sigPks ltPks lastTs = .ok tp) (w : WF tp)
    (h3 : startPeer ctx' now' eps' log ltSk m = .ok (0, q))
    (h4 : peerSetBufs q sigPks' noisePks outs ins shares xshares commitments' complaints' mine lastTs' = .ok p)
    (w' : PWF p) : Start t0 eps i ⟨tp, p, [], []⟩

/-- A successful call of one of the two. -/
inductive Duo.Step (clock : ℕ → UInt64) (i : ℕ) : Duo → Duo → Prop
  /-- The trusted party gets the messages of all peers. -/
  | tp (d : Duo) (tpClock : ℕ → UInt64) (log : Bool) (scratch : B32) (input out : Bytes) (c : TP) (o : Bytes)
    (hp : partOf d.tp input i = d.sent) (h : tpNext G tpClock log scratch d.tp input out = .ok (0, c, o)) :
    Step clock i d ⟨c, d.peer, delivered c o i, []⟩
  /-- The peer gets its part of the answer. -/
  | peer (d : Duo) (a : PCall) (p : PeerState) (o : Bytes) (hin : a.input = d.inbox)
    (hr : ∀ k, RandomScalar (a.rnd.coeff k)) (h : a.run G clock d.peer = .ok (0, p, o)) :
    Step clock i d ⟨d.tp, p, [], d.sent ++ o⟩

/-- The states that can be reached without an error. -/
inductive Duo.Reach (t0 eps : UInt64) (clock : ℕ → UInt64) (i : ℕ) : Duo → Prop
  | start (d : Duo) (h : Duo.Start t0 eps i d) : Reach t0 eps clock i d
  | step (d d' : Duo) (h : Reach t0 eps clock i d) (hs : Duo.Step G clock i d d') : Reach t0 eps clock i d'

/-- A dealer deceived the peer `i` (from 0): there are two different keys for the share that it sent to peer `i`. Both have
the same code on the ciphertext. With the one it has revealed now the share is right; with the other one, that of its session
with peer `i`, it is a share which is not. -/
def TwoKeys (c : TP) (input : Bytes) (i : ℕ) : Prop :=
  ∃ j < c.n.toNat, j ≠ i ∧ ∃ k < cnt c.known j, keyFor input c.known j k = idx i ∧
    ShareRight G c j (idx i) (keyOf input c.known j k) ∧
    ∃ key ≠ keyOf input c.known j k, ∃ x value,
      Mac.auth key (slice (storedBody c j (idx i)) 64 49) =
        Mac.auth (keyOf input c.known j k) (slice (storedBody c j (idx i)) 64 49) ∧
      NoiseCrypto.aeadDec key 0 [] (slice (storedBody c j (idx i)) 64 49) = some (x :: value.toList) ∧
      ¬ RightFor G (idx i) (dealt c j) value

end Verif.TpDkg
