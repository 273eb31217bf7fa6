import Verif.Proofs.Timing
import Verif.Proofs.Toy
import Verif.Props.Toprf

/-!
# Properties of the running time: C81, C82, C83

The traces belong to the functions of the model: `C81_model`, `C82_model` and `C83_model`.
-/

set_option linter.unusedSectionVars false

namespace Verif.Props

open Ct Ristretto Spec.Timing

section
variable (G : Type) [Ristretto G] [Hashes]

/-! ## C81: oprf.c -/

/-- C81, model: without their events the functions are the ones of `Model/Oprf.lean`. -/
theorem C81_model :
    (∀ mlock x xLen N o, (Ct.finalize mlock x xLen N o).res = Oprf.finalize mlock x xLen N o) ∧
    (∀ msg msgLen dst dstLen len o,
      (Ct.expandMessageXmd msg msgLen dst dstLen len o).res = Oprf.expandMessageXmd msg msgLen dst dstLen len o) ∧
    (∀ mlock msg msgLen p, (Ct.hashToGroup G mlock msg msgLen p).res = Oprf.hashToGroup G mlock msg msgLen p) ∧
    (∀ mlock s x xLen rnd r b, (Ct.blind G mlock s x xLen rnd r b).res = Oprf.blind G mlock s x xLen rnd r b) ∧
    (∀ k b z, (Ct.evaluate G k b z).res = .ok (Oprf.evaluate G k b z)) ∧
    (∀ mlock r Z N, (Ct.unblind G mlock r Z N).res = .ok (Oprf.unblind G mlock r Z N)) :=
  ⟨finalize_res, expandMessageXmd_res, hashToGroup_res G, blind_res G, evaluate_res G, unblind_res G⟩

/-- C81, blinding: two runs with inputs of the same length part at most at the return value of a call of libsodium, and
two successful ones leave the same trace, whatever the inputs and the random scalars are. -/
theorem C81_blind (mlock : Bool) {x x' : Bytes} (hx : x.length = x'.length) (xLen : UInt8) (s s' rnd rnd' r r' b b' : B32) :
    Agree (blind G mlock s x xLen rnd r b).evs (blind G mlock s' x' xLen rnd' r' b').evs ∧
    ∀ {y y' : B32 × B32}, Oprf.blind G mlock s x xLen rnd r b = .ok (0, y) →
      Oprf.blind G mlock s' x' xLen rnd' r' b' = .ok (0, y') →
      (blind G mlock s x xLen rnd r b).evs = (blind G mlock s' x' xLen rnd' r' b').evs := by
  have h := (blind_twin G mlock s s' hx xLen rnd rnd' r r' b b').agree
  refine ⟨h, fun {y y'} h1 h2 => h.exact (blind_clean G (r1 := y.1) (b1 := y.2) ?_)
    (blind_clean G (r1 := y'.1) (b1 := y'.2) ?_)⟩
  · rw [blind_res]; exact h1
  · rw [blind_res]; exact h2

/-- C81, evaluation: the trace depends on the key and the element only through the return value. -/
theorem C81_evaluate (k k' b b' z z' : B32) :
    Agree (evaluate G k b z).evs (evaluate G k' b' z').evs ∧
    ((Oprf.evaluate G k b z).1 = (Oprf.evaluate G k' b' z').1 → (evaluate G k b z).evs = (evaluate G k' b' z').evs) := by
  refine ⟨(evaluate_twin G k k' b b' z z').agree, fun h => ?_⟩
  show [Ev.call _ _] ++ _ = [Ev.call _ _] ++ _
  exact congrArg (fun r => [Ev.call Fn.scalarmult r] ++ []) h

/-- C81, unblinding. -/
theorem C81_unblind (mlock : Bool) (r r' Z Z' N N' : B32) :
    Agree (unblind G mlock r Z N).evs (unblind G mlock r' Z' N').evs ∧
    ((Oprf.unblind G mlock r Z N).1 = 0 → (Oprf.unblind G mlock r' Z' N').1 = 0 →
      (unblind G mlock r Z N).evs = (unblind G mlock r' Z' N').evs) := by
  have h := (unblind_twin G mlock r r' Z Z' N N').agree
  refine ⟨h, fun h1 h2 => h.exact (unblind_clean G (N1 := (Oprf.unblind G mlock r Z N).2) ?_)
    (unblind_clean G (N1 := (Oprf.unblind G mlock r' Z' N').2) ?_)⟩
  · rw [unblind_res, ← h1]
  · rw [unblind_res, ← h2]

/-- C81, finalization: the trace depends on the length of the input only. -/
theorem C81_finalize (mlock : Bool) {x x' : Bytes} (hx : x.length = x'.length) (xLen : UInt16) (N N' : B32) (o o' : B64) :
    (finalize mlock x xLen N o).evs = (finalize mlock x' xLen N' o').evs := by
  cases mlock
  · rfl
  · refine (finalize_twin true hx xLen N N' o o').agree.exact ?_ ?_ <;>
    · unfold finalize
      refine Clean.bind (clean_call rfl) fun _ _ => Clean.branch (fun _ => clean_nil) fun _ => ?_
      exact Clean.bind clean_access fun _ _ => clean_nil

/-! ## C82: toprf.c and mpmult.c -/

/-- C82, model. -/
theorem C82_model :
    (∀ i peers, (Ct.coeff i peers).res = .ok (Toprf.coeff i peers)) ∧
    (∀ s n t rnd out, (Ct.createShares s n t rnd out).res = Toprf.createShares s n t rnd out) ∧
    (∀ junk s l, (Ct.thresholdmult G junk s l).res = Toprf.thresholdmult G junk s l) ∧
    (∀ k b self ix z, (Ct.tevaluate G k b self ix z).res = .ok (Toprf.evaluate G k b self ix z)) ∧
    (∀ l r, (Ct.thresholdcombine G l r).res = Toprf.thresholdcombine G l r) ∧
    (∀ mlock s1 s2 k z alpha ssid len b,
      (Ct.hash3tdh G mlock s1 s2 k z alpha ssid len b).res = Toprf.hash3tdh G mlock s1 s2 k z alpha ssid len b) ∧
    (∀ a b n t rnd out, (Ct.mulStart a b n t rnd out).res = Mpmult.mulStart a b n t rnd out) ∧
    (∀ s l peer, (Ct.mulFinish s l peer).res = Mpmult.mulFinish s l peer) :=
  ⟨coeff_res, createShares_res, thresholdmult_res G, tevaluate_res G, thresholdcombine_res G, hash3tdh_res G, mulStart_res,
    mulFinish_res⟩

/-- C82, sharing: the trace depends on neither the secret nor the coefficients. -/
theorem C82_createShares (s s' : B32) (n threshold : UInt8) (rnd rnd' : ℕ → B32) {out out' : List Share}
    (h : out.length = out'.length) :
    (createShares s n threshold rnd out).evs = (createShares s' n threshold rnd' out').evs :=
  (createShares_twin s s' n threshold rnd rnd' h).agree.exact (createShares_clean ..) (createShares_clean ..)

/-- C82, threshold evaluation: for the same set of servers. -/
theorem C82_evaluate (k k' : Share) (b b' : B32) (self : UInt8) (indexes : List UInt8) (z z' : Share) :
    Agree (tevaluate G k b self indexes z).evs (tevaluate G k' b' self indexes z').evs ∧
    ((Toprf.evaluate G k b self indexes z).1 = 0 → (Toprf.evaluate G k' b' self indexes z').1 = 0 →
      (tevaluate G k b self indexes z).evs = (tevaluate G k' b' self indexes z').evs) := by
  have h := (tevaluate_twin G k k' b b' self indexes z z').agree
  refine ⟨h, fun h1 h2 => h.exact (tevaluate_clean G (z1 := (Toprf.evaluate G k b self indexes z).2) ?_)
    (tevaluate_clean G (z1 := (Toprf.evaluate G k' b' self indexes z').2) ?_)⟩
  · rw [tevaluate_res, ← h1]
  · rw [tevaluate_res, ← h2]

/-- C82, combination: the order of the work depends on the indexes of the answers only. -/
theorem C82_thresholdmult {l l' : List Share} (hl : SameIndexes l l') (junk : UInt8) (s s' : B32) :
    Agree (thresholdmult G junk s l).evs (thresholdmult G junk s' l').evs ∧
    ∀ {r r' : B32}, Toprf.thresholdmult G junk s l = .ok (0, r) → Toprf.thresholdmult G junk s' l' = .ok (0, r') →
      (thresholdmult G junk s l).evs = (thresholdmult G junk s' l').evs := by
  have h := (thresholdmult_twin G hl junk s s').agree
  refine ⟨h, fun {r r'} h1 h2 => h.exact (thresholdmult_clean G (r1 := r) ?_) (thresholdmult_clean G (r1 := r') ?_)⟩
  · rw [thresholdmult_res]; exact h1
  · rw [thresholdmult_res]; exact h2

/-- C82, combination of answers of `toprf_Evaluate` and `toprf_3hashtdh`. -/
theorem C82_thresholdcombine {l l' : List Share} (hl : SameIndexes l l') (r r' : B32) :
    Agree (thresholdcombine G l r).evs (thresholdcombine G l' r').evs :=
  (thresholdcombine_twin G hl r r').agree

/-- C82, 3hashTDH: the trace depends on neither the share of the key nor the share of zero. -/
theorem C82_3hashtdh (mlock : Bool) (s1 s1' s2 s2' : B32) (k k' z z' : Share) (alpha alpha' : B32) {ssid ssid' : Bytes}
    (hs : ssid.length = ssid'.length) (len : UInt16) (b b' : Share) :
    Agree (hash3tdh G mlock s1 s2 k z alpha ssid len b).evs (hash3tdh G mlock s1' s2' k' z' alpha' ssid' len b').evs ∧
    ∀ {y y' : Share}, Toprf.hash3tdh G mlock s1 s2 k z alpha ssid len b = .ok (0, y) →
      Toprf.hash3tdh G mlock s1' s2' k' z' alpha' ssid' len b' = .ok (0, y') →
      (hash3tdh G mlock s1 s2 k z alpha ssid len b).evs = (hash3tdh G mlock s1' s2' k' z' alpha' ssid' len b').evs := by
  have h := (hash3tdh_twin G mlock s1 s1' s2 s2' k k' z z' alpha alpha' hs len b b').agree
  refine ⟨h, fun {y y'} h1 h2 => h.exact (hash3tdh_clean G (b1 := y) ?_) (hash3tdh_clean G (b1 := y') ?_)⟩
  · rw [hash3tdh_res]; exact h1
  · rw [hash3tdh_res]; exact h2

/-- C82, start of a multiplication: the trace depends on the indexes of the factors only. -/
theorem C82_mulStart {a a' b b' : Share} (ha : a.index = a'.index) (hb : b.index = b'.index) (peers threshold : UInt8)
    (rnd rnd' : ℕ → B32) {out out' : List Share} (h : out.length = out'.length) :
    (mulStart a b peers threshold rnd out).evs = (mulStart a' b' peers threshold rnd' out').evs :=
  (mulStart_twin ha hb peers threshold rnd rnd' h).agree.exact (mulStart_clean ..) (mulStart_clean ..)

/-- C82, end of a multiplication: the comparisons in variable time (mpmult.c:17-24) see the indexes of the dealers only, the
trace does not depend on the shares. -/
theorem C82_mulFinish (s s' : B32) {l l' : List (UInt8 × Share)} (h : l.map (·.1) = l'.map (·.1)) (peer : UInt8) :
    (mulFinish s l peer).evs = (mulFinish s' l' peer).evs :=
  (mulFinish_twin s s' h peer).agree.exact (mulFinish_clean ..) (mulFinish_clean ..)

/-! ## C83: dkg.c -/

/-- C83, model. -/
theorem C83_model :
    (∀ mlock n t rnd c s, (Ct.start G mlock n t rnd c s).res = Dkg.start G mlock n t rnd c s) ∧
    (∀ s t self i c sh, (Ct.verifyCommitment G s t self i c sh).res = Dkg.verifyCommitment G s t self i c sh) ∧
    (∀ s n t self c sh f, (Ct.verifyCommitments G s n t self c sh f).res = Dkg.verifyCommitments G s n t self c sh f) ∧
    (∀ n l self xi, (Ct.finish n l self xi).res = Dkg.finish n l xi) ∧
    (∀ l, (Ct.reconstruct l).res = Dkg.reconstruct l) :=
  ⟨start_res G, verifyCommitment_res G, verifyCommitments_res G, finish_res, reconstruct_res⟩

/-- C83, dealing: the trace depends on the coefficients only if one of them is 0, which libsodium does not draw. -/
theorem C83_start {mlock : Bool} {n threshold : UInt8} {rnd rnd' : ℕ → B32} {c c' : List B32} {s s' : List Share}
    (hc : c.length = c'.length) (hs : s.length = s'.length) :
    Agree (start G mlock n threshold rnd c s).evs (start G mlock n threshold rnd' c' s').evs ∧
    (mlock = true → (∀ i < threshold.toNat, maskedVal (rnd i) ≠ 0) → (∀ i < threshold.toNat, maskedVal (rnd' i) ≠ 0) →
      (start G mlock n threshold rnd c s).evs = (start G mlock n threshold rnd' c' s').evs) := by
  have h := (start_twin G mlock n threshold rnd rnd' hc hs).agree
  exact ⟨h, fun hm h1 h2 => h.exact (start_clean G hm h1 ..) (start_clean G hm h2 ..)⟩

/-- C83, verification: for the same commitments the trace tells about the share whether it is 0 and whether it is the right
one. -/
theorem C83_verify (s : B32) (threshold self i : UInt8) (c : List B32) (sh sh' : Share) :
    Agree (verifyCommitment G s threshold self i c sh).evs (verifyCommitment G s threshold self i c sh').evs ∧
    ∀ {r : Int}, maskedVal sh.value ≠ 0 → maskedVal sh'.value ≠ 0 →
      Dkg.verifyCommitment G s threshold self i c sh = .ok r → Dkg.verifyCommitment G s threshold self i c sh' = .ok r →
      (verifyCommitment G s threshold self i c sh).evs = (verifyCommitment G s threshold self i c sh').evs := by
  refine ⟨(verifyCommitment_twin G s threshold self i c sh sh').agree, fun {r} n1 n2 h1 h2 => ?_⟩
  have nz : ∀ {x : B32}, maskedVal x ≠ 0 → (scalarmultBase G x).1 = 0 := by
    intro x hx
    have : maskedVal x • (base : G) ≠ 0 := by
      intro e
      rcases smul_eq_zero.1 e with e | e
      · exact hx e
      · exact base_ne e
    simp [scalarmultBase, enc_eq_zero, this]
  refine verifyCommitment_same G (r := r) ((nz n1).trans (nz n2).symm) ?_ ?_
  · rw [verifyCommitment_res]; exact h1
  · rw [verifyCommitment_res]; exact h2

/-- C83, verification of all shares. -/
theorem C83_verifyAll (s : B32) (n threshold self : UInt8) (c : List (List B32)) {sh sh' : List Share}
    (hs : sh.length = sh'.length) (f : List UInt8) :
    Agree (verifyCommitments G s n threshold self c sh f).evs (verifyCommitments G s n threshold self c sh' f).evs :=
  (verifyAll_twin G s n threshold self c hs ..).agree

/-- C83, end of the key generation: the trace depends on the indexes of the shares only. -/
theorem C83_finish (n : UInt8) {l l' : List Share} (h : SameIndexes l l') (self : UInt8) (xi xi' : Share) :
    (finish n l self xi).evs = (finish n l' self xi').evs :=
  (finish_twin n h self xi xi').agree.exact (finish_clean ..) (finish_clean ..)

/-- C83, reconstruction: the trace depends on the indexes of the shares only. -/
theorem C83_reconstruct {l l' : List Share} (h : SameIndexes l l') : (reconstruct l).evs = (reconstruct l').evs :=
  (reconstruct_twin h).agree.exact (reconstruct_clean ..) (reconstruct_clean ..)

end

/-! ## The hypotheses can be met, and traces do depend on what is public -/

section
attribute [local instance] Ristretto.toy Toy.hashes

/-- Blinding of different inputs of the same length with different scalars. -/
example (s r b : B32) : (blind (ZMod L) true s [1, 2] 2 (B32.ofZ ((5 : ℕ) : ZMod L)) r b).evs =
    (blind (ZMod L) true s [3, 4] 2 (B32.ofZ ((7 : ℕ) : ZMod L)) r b).evs :=
  (C81_blind (ZMod L) true rfl 2 s s _ _ r r b b).2
    (blind_eq (ZMod L) [1, 2] (by decide) _ (Toy.randomScalar 5 (by norm_num) (by norm_num)) (Toy.hashToGroup_ne _) s r b)
    (blind_eq (ZMod L) [3, 4] (by decide) _ (Toy.randomScalar 7 (by norm_num) (by norm_num)) (Toy.hashToGroup_ne _) s r b)

/-- Evaluation under different keys. -/
example : (evaluate (ZMod L) (B32.ofZ ((5 : ℕ) : ZMod L)) (enc (1 : ZMod L)) zero32).evs =
    (evaluate (ZMod L) (B32.ofZ ((7 : ℕ) : ZMod L)) (enc (1 : ZMod L)) zero32).evs := by
  have h : ∀ n : ℕ, n ≠ 0 → n < 2 ^ 252 → (Oprf.evaluate (ZMod L) (B32.ofZ (n : ZMod L)) (enc (1 : ZMod L)) zero32).1 = 0 := by
    intro n h0 h
    rw [C05_evaluate_iff]
    exact ⟨⟨1, dec_enc _, one_ne_zero⟩, by rw [maskedVal_ofZ]; exact Toy.natCast_ne_zero h0 h⟩
  exact (C81_evaluate (ZMod L) _ _ _ _ _ _).2 ((h 5 (by norm_num) (by norm_num)).trans (h 7 (by norm_num) (by norm_num)).symm)

/-- Unblinding with different scalars. -/
example : (unblind (ZMod L) true (B32.ofZ ((5 : ℕ) : ZMod L)) (enc (1 : ZMod L)) zero32).evs =
    (unblind (ZMod L) true (B32.ofZ ((7 : ℕ) : ZMod L)) (enc (1 : ZMod L)) zero32).evs := by
  have h : ∀ n : ℕ, n ≠ 0 → n < 2 ^ 252 →
      (Oprf.unblind (ZMod L) true (B32.ofZ (n : ZMod L)) (enc (1 : ZMod L)) zero32).1 = 0 := by
    intro n h0 h
    rw [C06_unblind_iff]
    exact ⟨rfl, by rw [B32.val_ofZ]; exact Toy.natCast_ne_zero h0 h, 1, dec_enc _, one_ne_zero⟩
  exact (C81_unblind (ZMod L) true _ _ _ _ _ _).2 (h 5 (by norm_num) (by norm_num)) (h 7 (by norm_num) (by norm_num))

/-- Different answers of the same servers. -/
example : SameIndexes [⟨3, zero32⟩, ⟨1, enc (1 : ZMod L)⟩] [⟨3, enc (1 : ZMod L)⟩, ⟨1, zero32⟩] := rfl

/-- The trace of a combination tells the order of the indexes. -/
example : (sortParts [⟨1, zero32⟩, ⟨2, zero32⟩]).evs ≠ (sortParts [⟨2, zero32⟩, ⟨1, zero32⟩]).evs := by decide

/-- The trace of an evaluation tells a key of 0. -/
example : (evaluate (ZMod L) (B32.ofZ 0) (enc (1 : ZMod L)) zero32).evs ≠
    (evaluate (ZMod L) (B32.ofZ 1) (enc (1 : ZMod L)) zero32).evs := by
  have h1 : (Oprf.evaluate (ZMod L) (B32.ofZ 1) (enc (1 : ZMod L)) zero32).1 = 0 := by
    rw [C05_evaluate_iff]
    exact ⟨⟨1, dec_enc _, one_ne_zero⟩, by rw [maskedVal_ofZ]; exact one_ne_zero⟩
  have h0 : (Oprf.evaluate (ZMod L) (B32.ofZ 0) (enc (1 : ZMod L)) zero32).1 ≠ 0 := by
    intro h
    exact absurd (maskedVal_ofZ 0) ((C05_evaluate_iff (ZMod L) _ _ _).1 h).2
  intro e
  have e' : [Ev.call Fn.scalarmult _] ++ [] = [Ev.call Fn.scalarmult _] ++ [] := e
  simp only [List.append_nil, List.cons.injEq, Ev.call.injEq, true_and, and_true] at e'
  exact h0 (e'.trans h1)

/-- Coefficients that libsodium can draw. -/
example : ∀ i < (2 : UInt8).toNat, maskedVal ((fun i : ℕ => B32.ofZ ((i + 1 : ℕ) : ZMod L)) i) ≠ 0 := by
  intro i hi
  have : i < 2 := hi
  show maskedVal (B32.ofZ ((i + 1 : ℕ) : ZMod L)) ≠ 0
  rw [maskedVal_ofZ]
  exact Toy.natCast_ne_zero (by omega) (lt_of_le_of_lt (by omega : i + 1 ≤ 2) (by norm_num))

end

end Verif.Props
