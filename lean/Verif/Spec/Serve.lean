import Verif.Model.Toprf
import Verif.Spec.Oprf
import Verif.Spec.Sharing

/-!
# Servers that answer for a key

What the users of the library want from a set of shares, in terms of the functions that a client and the servers call:
`oprf_Blind`, `oprf_Evaluate` or `toprf_Evaluate`, `toprf_thresholdmult` or `toprf_thresholdcombine`, `oprf_Unblind` and
`oprf_Finalize`.
-/

namespace Verif.Spec

open Ristretto

variable (G : Type) [Ristretto G] [Hashes]

/-- SHA-512 on lists of bytes -/
def sha (b : Bytes) : Bytes := (Hashes.sha512 b).toList

/-- The client unblinds the combined answer `β` and gets the output of the one-server protocol with the key. The key 0
is noticed. -/
def Yields (key : ZMod L) (x : Bytes) (r β N0 : B32) (y0 : B64) : Prop :=
  (key ≠ 0 → ∃ N y, Oprf.unblind G true r β N0 = (0, N) ∧ Oprf.finalize true x (UInt16.ofNat x.length) N y0 = .ok (0, y) ∧
    y.toList = oprf G sha key x) ∧
  (key = 0 → (Oprf.unblind G true r β N0).1 ≠ 0)

/-- Any `t` different holders of the shares answer for the key. The first way needs shares that are not 0, which the
servers notice; with the second one the servers know who takes part. -/
def Serves (key : ZMod L) (t : ℕ) (shares : List Share) : Prop :=
  ∀ (x : Bytes) (r : B32) (sel : List Share), x.length ≤ 255 → RandomScalar r → hashToGroup G sha x ≠ 0 →
    sel.Nodup → (∀ s ∈ sel, s ∈ shares) → t ≤ sel.length → ∀ (scratch r0 b0 Z0 N0 res0 : B32) (junk : UInt8) (y0 : B64),
    ∃ blinded, Oprf.blind G true scratch x (UInt8.ofNat x.length) r r0 b0 = .ok (0, r, blinded) ∧
      ((∀ s ∈ sel, (Oprf.evaluate G s.value blinded Z0).1 = 0) →
        ∃ β, Toprf.thresholdmult G junk scratch
          (sel.map fun s => ⟨s.index, (Oprf.evaluate G s.value blinded Z0).2⟩) = .ok (0, β) ∧ Yields G key x r β N0 y0) ∧
      ∀ peers : List UInt8, peers.Perm (sel.map (·.index)) → ∀ Z0 : Share → Share,
        ∃ β, Toprf.thresholdcombine G (sel.map fun s => (Toprf.evaluate G s blinded s.index peers (Z0 s)).2) res0 =
          .ok (0, β) ∧ Yields G key x r β N0 y0

end Verif.Spec
