import Verif.Spec.PeerNoise
import Verif.Spec.Peer

/-!
# The Noise calls of a run of a peer

`callOps` lists the calls of the Noise helpers that a call of `tpdkg_peer_next` makes when nothing stops it. Slot `i` of a
program is `noise_outs[i]`, slot `n+i` is `noise_ins[i]`.
-/

namespace Verif.Spec.PeerMem

open TpDkg Noise Spec.PeerNoise

/-- tp-dkg.c:860, 922, 950, 1054-1064, 1127-1141 and 1317-1319. -/
def callOps (c : PeerState) (a : PCall) : List Op :=
  let n := c.n.toNat
  match c.step with
  | 1 => (List.range n).flatMap fun i => [.init i i (toB32 (slice a.input (i * 175 + 254) 32)) (a.rnd.einit i)]
  | 2 => (List.range n).flatMap fun i => [.respond (n + i) (slice a.input (i * 159 + 111) 48) (a.rnd.eresp i)]
  | 3 => (List.range n).flatMap fun i => [.finish a.log i (slice a.input (i * 159 + 111) 48)]
  | 4 => (List.range n).flatMap fun i =>
    let s := c.shares.getD i ⟨0, zero32⟩
    [.encrypt i [] 64, .encrypt i (s.index :: s.value.toList) 49, .key i]
  | 5 => (List.range n).flatMap fun i =>
    [.decrypt (n + i) (slice a.input (i * 256 + 111) 64) 0, .key (n + i),
      .decrypt (n + i) (slice a.input (i * 256 + 175) 49) 33]
  | 7 => (List.range c.myLen.toNat).flatMap fun i => [.key ((c.mine.getD i 0).toNat - 1)]
  | _ => []

/-- `tpdkg_peer_free`, tp-dkg.c:597-600. -/
def cleanup (n : ℕ) : List Op := (List.range n).flatMap fun i => [.free (n + i), .free i]

section
variable [Signing] [Hashes] [NoiseCrypto] [Mac] (G : Type) [Ristretto G]

/-- The program `ops` is what these calls do: every call makes its calls of the Noise helpers in their order, all of them
if it succeeds and the first ones if it fails. -/
def Does (clock : ℕ → UInt64) : PeerState → List PCall → List Op → Prop
  | _, [], ops => ops = []
  | c, a :: calls, ops => ∃ r c1 o pre rest, a.run G clock c = .ok (r, c1, o) ∧ pre <+: callOps c a ∧
    (r = 0 → pre = callOps c a) ∧ Does clock c1 calls rest ∧ ops = pre ++ rest

end

end Verif.Spec.PeerMem
