import Verif.Proofs.Python
import Verif.Props.Oprf
import Verif.Props.PeerRun

/-!
# The Python wrapper rejects what the C functions cannot handle: C58

For every function: which arguments reach the C function, and that the C function handles the arguments of its domain. Where
arguments outside of the domain reach the C function this is shown with a witness, and the first part has the suffix
`_partial`.
-/

set_option linter.unusedSectionVars false

namespace Verif.Props

open Py Spec.Python TpDkg Wire

section
variable [Hashes] (G : Type) [Ristretto G]

/-! ## Functions with complete checks -/

/-- **C58**, `evaluate`. -/
theorem C58_evaluate (key blinded : Val) :
    (Reaches (Py.evaluate G key blinded) ↔ BytesOf key 32 ∧ BytesOf blinded 32) ∧
    (BytesOf key 32 → BytesOf blinded 32 → Handled (Py.evaluate G key blinded)) := by
  have hd : BytesOf key 32 → BytesOf blinded 32 → Handled (Py.evaluate G key blinded) := by
    intro hk hb
    unfold Py.evaluate
    rw [raiseIf_false (notBytes_iff.2 hk), raiseIf_false (notBytes_iff.2 hb)]
    obtain ⟨k, rfl, lk⟩ := hk
    obtain ⟨b, rfl, lb⟩ := hb
    simp only [Val.ptr, orRaise_some]
    obtain ⟨k', hk⟩ := b32At_ok (buf := k ++ [0]) (off := 0) (by rw [List.length_append, lk]; decide)
    obtain ⟨b', hb⟩ := b32At_ok (buf := b ++ [0]) (off := 0) (by rw [List.length_append, lb]; decide)
    rw [hk, C.ok_bind, hb, C.ok_bind]
    exact handled_reached (C.safe_ok _)
  refine ⟨⟨fun h => ?_, fun h => ?_⟩, hd⟩
  · unfold Py.evaluate at h
    simp only [reaches_raiseIf, notBytes_iff] at h
    exact ⟨h.1, h.2.1⟩
  · obtain ⟨c, hc, -⟩ := hd h.1 h.2
    exact ⟨c, hc⟩

/-- **C58**, `unblind`. -/
theorem C58_unblind (mlock : Bool) (r Z : Val) :
    (Reaches (Py.unblind G mlock r Z) ↔ BytesOf r 32 ∧ BytesOf Z 32) ∧
    (BytesOf r 32 → BytesOf Z 32 → Handled (Py.unblind G mlock r Z)) := by
  have hd : BytesOf r 32 → BytesOf Z 32 → Handled (Py.unblind G mlock r Z) := by
    intro hk hb
    unfold Py.unblind
    rw [raiseIf_false (notBytes_iff.2 hk), raiseIf_false (notBytes_iff.2 hb)]
    obtain ⟨k, rfl, lk⟩ := hk
    obtain ⟨b, rfl, lb⟩ := hb
    simp only [Val.ptr, orRaise_some]
    obtain ⟨k', hk⟩ := b32At_ok (buf := k ++ [0]) (off := 0) (by rw [List.length_append, lk]; decide)
    obtain ⟨b', hb⟩ := b32At_ok (buf := b ++ [0]) (off := 0) (by rw [List.length_append, lb]; decide)
    rw [hk, C.ok_bind, hb, C.ok_bind]
    exact handled_reached (C.safe_ok _)
  refine ⟨⟨fun h => ?_, fun h => ?_⟩, hd⟩
  · unfold Py.unblind at h
    simp only [reaches_raiseIf, notBytes_iff] at h
    exact ⟨h.1, h.2.1⟩
  · obtain ⟨c, hc, -⟩ := hd h.1 h.2
    exact ⟨c, hc⟩

theorem isBytes_iff {v : Val} : ¬ v.isBytes = false ↔ ∃ b, v = .bytes b := by
  cases v <;> simp [Val.isBytes]

theorem hash3tdh_safe (mlock : Bool) (s1 s2 : B32) (k z : Share) (a : B32) (ssid : Bytes) (len : UInt16) (b0 : Share)
    (h : len.toNat ≤ ssid.length) : (Toprf.hash3tdh G mlock s1 s2 k z a ssid len b0).Safe := by
  unfold Toprf.hash3tdh
  rcases Oprf.evaluate G k.value a b0.value with ⟨ret, bv⟩
  dsimp only
  split
  · exact C.safe_ok _
  rw [rd_ok (by omega), C.ok_bind]
  cases mlock with
  | false =>
    unfold Oprf.hashToGroup
    simp only [Bool.not_false, if_true, C.ok_bind]
    split
    · exact C.safe_ok _
    · rcases Oprf.evaluate G z.value s1 s2 with ⟨ret, h2⟩
      dsimp only
      split <;> exact C.safe_ok _
  | true =>
    rw [Oprf.hashToGroup_ok G _ _ (by simp), C.ok_bind]
    dsimp only
    split
    · exact C.safe_ok _
    · generalize Oprf.evaluate G z.value _ s2 = e
      rcases e with ⟨ret, h2⟩
      dsimp only
      split <;> exact C.safe_ok _

/-- **C58**, `_3hashtdh`. -/
theorem C58_3hashtdh (mlock : Bool) (s1 s2 : B32) (k z alpha ssid : Val) :
    (Reaches (Py.hash3tdh G mlock s1 s2 k z alpha ssid) ↔ TdhArgs k z alpha ssid) ∧
    (TdhArgs k z alpha ssid → Handled (Py.hash3tdh G mlock s1 s2 k z alpha ssid)) := by
  have hd : TdhArgs k z alpha ssid → Handled (Py.hash3tdh G mlock s1 s2 k z alpha ssid) := by
    rintro ⟨hk, hz, ha, hs⟩
    unfold Py.hash3tdh
    rw [raiseIf_false (notBytes_iff.2 hk), raiseIf_false (notBytes_iff.2 hz), raiseIf_false (notBytes_iff.2 ha)]
    obtain ⟨k, rfl, lk⟩ := hk
    obtain ⟨z, rfl, lz⟩ := hz
    obtain ⟨a, rfl, la⟩ := ha
    obtain ⟨s, rfl, ls⟩ := hs
    rw [raiseIf_false (by simp [Val.isBytes])]
    simp only [Val.ptr, Val.len, orRaise_some]
    rw [raiseIf_false (by omega)]
    obtain ⟨k', hk⟩ := shareAt_ok (buf := k ++ [0]) (i := 0) (by rw [List.length_append, lk]; decide)
    obtain ⟨z', hz⟩ := shareAt_ok (buf := z ++ [0]) (i := 0) (by rw [List.length_append, lz]; decide)
    obtain ⟨a', ha⟩ := b32At_ok (buf := a ++ [0]) (off := 0) (by rw [List.length_append, la]; decide)
    rw [hk, C.ok_bind, hz, C.ok_bind, ha, C.ok_bind]
    refine handled_reached (hash3tdh_safe G _ _ _ _ _ _ _ _ _ ?_)
    rw [UInt16.toNat_ofNat', List.length_append, List.length_singleton]
    omega
  refine ⟨⟨fun h => ?_, fun h => ?_⟩, hd⟩
  · unfold Py.hash3tdh at h
    simp only [reaches_raiseIf, reaches_orRaise, notBytes_iff, isBytes_iff] at h
    obtain ⟨h1, h2, h3, ⟨b, rfl⟩, len, hl, h5, -⟩ := h
    cases hl
    exact ⟨h1, h2, h3, b, rfl, by omega⟩
  · obtain ⟨c, hc, -⟩ := hd h
    exact ⟨c, hc⟩

/-! ## `blind` and `finalize` -/

/-- **C58**, `blind`: the C function handles its domain. Missing: nothing is rejected that `ctypes` can pass (next theorem). -/
theorem C58_blind_partial (mlock : Bool) (scratch rnd : B32) (x : Val) (h : BlindArgs x) :
    Handled (Py.blind G mlock scratch rnd x) := by
  obtain ⟨b, rfl, hl⟩ := h
  unfold Py.blind
  simp only [Val.ptr, Val.len, orRaise_some]
  refine handled_reached ?_
  unfold Oprf.blind
  cases mlock with
  | false => exact C.safe_ok _
  | true =>
    rw [if_neg (by simp), Oprf.hashToGroup_ok G _ _ (by
      rw [UInt8.toNat_ofNat', List.length_append, List.length_singleton]; omega), C.ok_bind]
    dsimp only
    rw [if_neg (by decide)]
    split <;> exact C.safe_ok _

/-- **C58**, violated: `blind` passes the length of its argument modulo 256; 256 bytes are handled like none. Strings are
passed as well. -/
theorem C58_blind_violated (mlock : Bool) (scratch rnd : B32) :
    (∀ b : Bytes, b.length = 256 → ¬ BlindArgs (.bytes b) ∧
      Py.blind G mlock scratch rnd (.bytes b) = .reached (Oprf.blind G mlock scratch (b ++ [0]) 0 rnd zero32 zero32)) ∧
    ∀ s, ¬ BlindArgs (.str s) ∧ Reaches (Py.blind G mlock scratch rnd (.str s)) := by
  refine ⟨fun b hb => ⟨?_, ?_⟩, fun s => ⟨?_, ?_⟩⟩
  · rintro ⟨b', h, hl⟩
    cases h
    omega
  · unfold Py.blind
    simp only [Val.ptr, Val.len, orRaise_some]
    rw [hb]
    rfl
  · rintro ⟨b', h, hl⟩
    cases h
  · exact ⟨_, rfl⟩

/-- **C58**, `finalize`: the size of `N` is checked and the C function handles its domain. Missing: the size and the type of
`x` (next theorem). -/
theorem C58_finalize_partial (mlock : Bool) (x N : Val) :
    (Reaches (Py.finalize mlock x N) → BytesOf N 32) ∧ (FinalizeArgs x N → Handled (Py.finalize mlock x N)) := by
  constructor
  · intro h
    unfold Py.finalize at h
    simp only [reaches_raiseIf, notBytes_iff] at h
    exact h.1
  · rintro ⟨⟨b, rfl, hl⟩, hN⟩
    unfold Py.finalize
    rw [raiseIf_false (notBytes_iff.2 hN)]
    obtain ⟨N, rfl, lN⟩ := hN
    simp only [Val.ptr, Val.len, orRaise_some]
    obtain ⟨N', hN⟩ := b32At_ok (buf := N ++ [0]) (off := 0) (by rw [List.length_append, lN]; decide)
    rw [hN, C.ok_bind]
    refine handled_reached ?_
    unfold Oprf.finalize
    split
    · exact C.safe_ok _
    · rw [rd_ok (by rw [UInt16.toNat_ofNat', List.length_append, List.length_singleton]; omega), C.ok_bind]
      exact C.safe_ok _

/-- **C58**, violated: `finalize` passes the length of `x` modulo 65536. -/
theorem C58_finalize_violated (mlock : Bool) (x N : Bytes) (hx : x.length = 65536) (hN : N.length = 32) :
    ¬ FinalizeArgs (.bytes x) (.bytes N) ∧
    Py.finalize mlock (.bytes x) (.bytes N) = .reached (do
      let N ← b32At (N ++ [0]) 0
      Oprf.finalize mlock (x ++ [0]) 0 N (toB64 [])) := by
  constructor
  · rintro ⟨⟨b, h, hl⟩, -⟩
    cases h
    omega
  · unfold Py.finalize
    rw [raiseIf_false (notBytes_iff.2 ⟨N, rfl, hN⟩)]
    simp only [Val.ptr, Val.len, orRaise_some]
    rw [hx]
    rfl

/-! ## Threshold functions -/

/-- **C58**, `coeff`: the lower bound of the index is checked and the C function handles its domain. Missing: the upper
bound and the number of peers (next theorem). -/
theorem C58_coeff_partial (index : ℤ) (peers : Val) :
    (Reaches (Py.coeff index peers) → 1 ≤ index) ∧ (CoeffArgs index peers → Handled (Py.coeff index peers)) := by
  constructor
  · intro h
    unfold Py.coeff at h
    simp only [reaches_raiseIf] at h
    omega
  · rintro ⟨⟨h1, h2⟩, b, rfl, hl⟩
    unfold Py.coeff
    simp only [Val.ptr, Val.len, orRaise_some]
    rw [raiseIf_false (by omega), raiseIf_false (fits (by omega) h2), rd_ok (by rw [List.length_append]; omega), C.ok_bind]
    exact handled_reached (C.safe_ok _)

/-- **C58**, violated: fewer than two peers reach `coeff` because the exception is not raised, and the index is passed
modulo 256. A list, which the annotation asks for, is never accepted. -/
theorem C58_coeff_violated :
    (∀ b : Bytes, b.length < 2 → ¬ CoeffArgs 1 (.bytes b) ∧ Reaches (Py.coeff 1 (.bytes b))) ∧
    (¬ CoeffArgs 257 (.bytes [1, 2]) ∧ Py.coeff 257 (.bytes [1, 2]) = Py.coeff 1 (.bytes [1, 2])) ∧
    ∀ i n, ¬ Reaches (Py.coeff i (.other n)) := by
  refine ⟨fun b hb => ⟨?_, ⟨_, rfl⟩⟩, ⟨?_, rfl⟩, ?_⟩
  · rintro ⟨-, b', h, hl⟩
    cases h
    omega
  · rintro ⟨⟨-, h⟩, -⟩
    omega
  · intro i n h
    unfold Py.coeff at h
    simp only [reaches_raiseIf, reaches_orRaise] at h
    obtain ⟨-, l, -, -, p, hp, -⟩ := h
    cases hp

/-- **C58**, `create_shares`: everything but the upper bound of `n` is checked and the C function handles its domain. -/
theorem C58_create_shares_partial (rnd : ℕ → B32) (secret : Val) (n t : ℤ) :
    (Reaches (Py.createShares rnd secret n t) → n ≤ 254 → CreateArgs secret n t) ∧
    (CreateArgs secret n t → Handled (Py.createShares rnd secret n t)) := by
  constructor
  · intro h hn
    unfold Py.createShares at h
    simp only [reaches_raiseIf, notBytes_iff] at h
    exact ⟨h.1, by omega, by omega, hn⟩
  · rintro ⟨hs, ht, htn, hn⟩
    unfold Py.createShares
    rw [raiseIf_false (notBytes_iff.2 hs), raiseIf_false (by omega), raiseIf_false (by omega),
      raiseIf_false (fits (by omega) (by omega)), raiseIf_false (fits (by omega) (by omega))]
    obtain ⟨s, rfl, ls⟩ := hs
    simp only [Val.ptr, orRaise_some]
    obtain ⟨s', hs⟩ := b32At_ok (buf := s ++ [0]) (off := 0) (by rw [List.length_append, ls]; decide)
    rw [hs, C.ok_bind]
    have e1 := u8_toNat (z := n) (by omega) (by omega)
    have e2 := u8_toNat (z := t) (by omega) (by omega)
    exact handled_reached (C21_create_shares_safe_partial _ _ _ _ _ (by omega) (by omega)
      (by rw [List.length_replicate, e1]))

/-- **C58**, violated: `n = 255` reaches the C function, which does not end properly; so does `t = 257`, which it takes for
`t = 1`. -/
theorem C58_create_shares_violated (rnd : ℕ → B32) (s : Bytes) (hs : s.length = 32) :
    (∃ c, Py.createShares rnd (.bytes s) 255 2 = .reached c ∧ ¬ c.Safe) ∧
    ∃ c, Py.createShares rnd (.bytes s) 258 257 = .reached c ∧ ¬ c.Safe := by
  obtain ⟨s', hs'⟩ := b32At_ok (buf := s ++ [0]) (off := 0) (by rw [List.length_append, hs]; decide)
  constructor
  all_goals
    unfold Py.createShares
    rw [raiseIf_false (notBytes_iff.2 ⟨s, rfl, hs⟩), raiseIf_false (by decide), raiseIf_false (by decide),
      raiseIf_false (by unfold Py.Fits; norm_num), raiseIf_false (by unfold Py.Fits; norm_num)]
    simp only [Val.ptr, orRaise_some]
    refine ⟨_, rfl, ?_⟩
    rw [hs', C.ok_bind]
  · exact C21_create_shares_255 _ _ _ _
  · rw [C21_create_shares_threshold _ _ _ _ _ (by decide)]
    exact C.not_safe_ub _

/-- **C58**, `thresholdmult` and `threshold_combine`: types and sizes of the responses are checked and the C functions
handle their domain. Missing: the number of responses (next theorem). -/
theorem C58_combine_partial (junk : UInt8) (scratch : B32) (responses : List Val) :
    (Reaches (Py.thresholdmult G junk scratch responses) → ∀ r ∈ responses, BytesOf r 33) ∧
    (Reaches (Py.thresholdCombine G responses) → ∀ r ∈ responses, BytesOf r 33) ∧
    (CombineArgs responses → Handled (Py.thresholdmult G junk scratch responses) ∧
      Handled (Py.thresholdCombine G responses)) := by
  refine ⟨fun h => ?_, fun h => ?_, ?_⟩
  · unfold Py.thresholdmult at h
    simp only [reaches_raiseIf, not_badParts] at h
    exact h.1
  · unfold Py.thresholdCombine at h
    simp only [reaches_raiseIf, not_badParts] at h
    exact h.1
  · rintro ⟨hr, hl⟩
    obtain ⟨b, hb, hbl⟩ := join_parts hr
    obtain ⟨rs, hrs, hrl⟩ := sharesAt_ok (buf := b ++ [0]) (k := responses.length)
      (by rw [List.length_append, hbl]; omega)
    have hne : rs ≠ [] := by rintro rfl; rw [List.length_nil] at hrl; omega
    unfold Py.thresholdmult Py.thresholdCombine
    rw [raiseIf_false (not_badParts.2 hr), raiseIf_false (not_badParts.2 hr), hb, orRaise_some, orRaise_some, hrs,
      C.ok_bind, C.ok_bind]
    exact ⟨handled_reached ((C21_combine_safe_iff G _ _ zero32 _).1.2 hne),
      handled_reached ((C21_combine_safe_iff G 0 zero32 _ _).2.2 hne)⟩

/-- **C58**, violated: an empty list of responses reaches both C functions, whose behaviour is then undefined; a single
response reaches them, too. -/
theorem C58_combine_violated (junk : UInt8) (scratch : B32) :
    (∃ c, Py.thresholdmult G junk scratch [] = .reached c ∧ ¬ c.Safe) ∧
    (∃ c, Py.thresholdCombine G [] = .reached c ∧ ¬ c.Safe) ∧
    ∀ b : Bytes, b.length = 33 → ¬ CombineArgs [.bytes b] ∧ Reaches (Py.thresholdmult G junk scratch [.bytes b]) ∧
      Reaches (Py.thresholdCombine G [.bytes b]) := by
  refine ⟨⟨_, rfl, ?_⟩, ⟨_, rfl, ?_⟩, fun b hb => ?_⟩
  · show ¬ (Toprf.thresholdmult G junk scratch []).Safe
    rw [(C21_combine_safe_iff G junk scratch zero32 []).1]
    exact fun h => h rfl
  · show ¬ (Toprf.thresholdcombine G [] zero32).Safe
    rw [(C21_combine_safe_iff G junk scratch zero32 []).2]
    exact fun h => h rfl
  · have hr : ∀ r ∈ [Val.bytes b], BytesOf r 33 := by
      intro r hr
      rw [List.mem_singleton] at hr
      exact ⟨b, hr, hb⟩
    obtain ⟨b', hb', -⟩ := join_parts hr
    refine ⟨fun h => ?_, ?_, ?_⟩
    · have := h.2
      simp at this
    · unfold Py.thresholdmult
      rw [raiseIf_false (not_badParts.2 hr), hb', orRaise_some]
      exact ⟨_, rfl⟩
    · unfold Py.thresholdCombine
      rw [raiseIf_false (not_badParts.2 hr), hb', orRaise_some]
      exact ⟨_, rfl⟩

/-- **C58**, `threshold_evaluate`: everything but the number of indexes is checked and the C function handles its domain. -/
theorem C58_threshold_evaluate_partial (k blinded : Val) (self : ℤ) (indexes : List ℤ) :
    (Reaches (Py.thresholdEvaluate G k blinded self indexes) → indexes.length ≤ 65535 →
      EvaluateArgs k blinded self indexes) ∧
    (EvaluateArgs k blinded self indexes → Handled (Py.thresholdEvaluate G k blinded self indexes)) := by
  constructor
  · intro h hl
    unfold Py.thresholdEvaluate at h
    simp only [reaches_raiseIf, notBytes_iff, not_not] at h
    obtain ⟨h1, h2, h3, h4, -⟩ := h
    exact ⟨h1, h2, by omega, fun i hi => by have := h4 i hi; omega, hl⟩
  · rintro ⟨hk, hb, hs, hi, hl⟩
    unfold Py.thresholdEvaluate
    rw [raiseIf_false (notBytes_iff.2 hk), raiseIf_false (notBytes_iff.2 hb), raiseIf_false (by omega),
      raiseIf_false (by rw [not_not]; intro i h; have := hi i h; omega)]
    obtain ⟨k, rfl, lk⟩ := hk
    obtain ⟨b, rfl, lb⟩ := hb
    simp only [Val.ptr, orRaise_some]
    obtain ⟨k', hk⟩ := shareAt_ok (buf := k ++ [0]) (i := 0) (by rw [List.length_append, lk]; decide)
    obtain ⟨b', hb⟩ := b32At_ok (buf := b ++ [0]) (off := 0) (by rw [List.length_append, lb]; decide)
    rw [hk, C.ok_bind, hb, C.ok_bind, rd_ok (by
      rw [UInt16.toNat_ofNat', List.length_append, List.length_map]; omega), C.ok_bind]
    exact handled_reached (C.safe_ok _)

/-- **C58**, violated: of 65536 indexes the C function sees none. -/
theorem C58_threshold_evaluate_violated (k b : Bytes) (hk : k.length = 33) (hb : b.length = 32) :
    ¬ EvaluateArgs (.bytes k) (.bytes b) 1 (List.replicate 65536 1) ∧
    ∃ s p, shareAt (k ++ [0]) 0 = .ok s ∧ b32At (b ++ [0]) 0 = .ok p ∧
      Py.thresholdEvaluate G (.bytes k) (.bytes b) 1 (List.replicate 65536 1) =
        .reached (.ok (Toprf.evaluate G s p 1 [] zeroShare)) := by
  constructor
  · rintro ⟨-, -, -, -, h⟩
    rw [List.length_replicate] at h
    omega
  · obtain ⟨s, hs⟩ := shareAt_ok (buf := k ++ [0]) (i := 0) (by rw [List.length_append, hk]; decide)
    obtain ⟨p, hp⟩ := b32At_ok (buf := b ++ [0]) (off := 0) (by rw [List.length_append, hb]; decide)
    refine ⟨s, p, hs, hp, ?_⟩
    unfold Py.thresholdEvaluate
    rw [raiseIf_false (notBytes_iff.2 ⟨k, rfl, hk⟩), raiseIf_false (notBytes_iff.2 ⟨b, rfl, hb⟩),
      raiseIf_false (by decide), raiseIf_false (by
        rw [not_not]
        intro i hi
        rw [List.eq_of_mem_replicate hi]
        decide)]
    simp only [Val.ptr, orRaise_some]
    have e : (UInt16.ofNat 65536).toNat = 0 := rfl
    rw [hs, C.ok_bind, hp, C.ok_bind, List.length_replicate, e, rd_ok (by omega), C.ok_bind, List.take_zero]
    rfl

/-! ## Distributed key generation -/

/-- **C58**, `dkg_start`: everything but the upper bound of `n` is checked and the C function handles its domain. -/
theorem C58_dkg_start_partial (mlock : Bool) (rnd : ℕ → B32) (hr : ∀ k, RandomScalar (rnd k)) (n t : ℤ) :
    (Reaches (Py.dkgStart G mlock rnd n t) → n ≤ 254 → StartArgs n t) ∧
    (StartArgs n t → Handled (Py.dkgStart G mlock rnd n t)) := by
  constructor
  · intro h hn
    unfold Py.dkgStart at h
    simp only [reaches_raiseIf] at h
    exact ⟨by omega, by omega, hn⟩
  · rintro ⟨ht, htn, hn⟩
    unfold Py.dkgStart
    rw [raiseIf_false (by omega), raiseIf_false (by omega), raiseIf_false (fits (by omega) (by omega)),
      raiseIf_false (fits (by omega) (by omega))]
    have e1 := u8_toNat (z := n) (by omega) (by omega)
    have e2 := u8_toNat (z := t) (by omega) (by omega)
    exact handled_reached (C28_dkg_safe_partial G mlock zero32 (u8 n) (u8 t) 1 (by decide) (by omega) (by omega) rnd hr _
      (by rw [List.length_replicate, e2]) _ (by rw [List.length_replicate, e1])
      (List.replicate (u8 n).toNat (List.replicate (u8 t).toNat zero32)) List.length_replicate
      (fun c hc => by rw [List.eq_of_mem_replicate hc, List.length_replicate]) (List.replicate (u8 n).toNat 0)
      List.length_replicate zeroShare).1

/-- **C58**, violated: `n = 255` reaches the C function, which does not end properly; so does `t = 256`, which it takes for
`t = 0`. -/
theorem C58_dkg_start_violated (mlock : Bool) (rnd : ℕ → B32) :
    (∃ c, Py.dkgStart G true rnd 255 2 = .reached c ∧ ¬ c.Safe) ∧
    ∃ c, Py.dkgStart G mlock rnd 257 256 = .reached c ∧ ¬ c.Safe := by
  constructor
  all_goals
    unfold Py.dkgStart
    rw [raiseIf_false (by decide), raiseIf_false (by decide), raiseIf_false (by unfold Py.Fits; norm_num),
      raiseIf_false (by unfold Py.Fits; norm_num)]
    refine ⟨_, rfl, ?_⟩
  · exact (C28_dkg_255 G zero32 _ 1 rnd _ _ [] []).1
  · rw [C28_dkg_threshold0 G mlock _ _ (by decide)]
    exact C.not_safe_ub _

/-- **C58**, `dkg_verify_commitments`: everything but the upper bound of `n` and the type of the commitments is checked and
the C function handles its domain. -/
theorem C58_dkg_verify_partial (scratch : B32) (n t self : ℤ) (c : Bytes) (shares : List Val) :
    (Reaches (Py.dkgVerifyCommitments G scratch n t self (.bytes c) shares) → n ≤ 254 →
      VerifyArgs n t self (.bytes c) shares) ∧
    (VerifyArgs n t self (.bytes c) shares → Handled (Py.dkgVerifyCommitments G scratch n t self (.bytes c) shares)) := by
  constructor
  · intro h hn
    unfold Py.dkgVerifyCommitments at h
    simp only [reaches_raiseIf, reaches_orRaise, not_not] at h
    obtain ⟨h1, h2, h3, len, hl, h4, b, hb, h5, -⟩ := h
    cases hl
    exact ⟨⟨by omega, by omega, hn⟩, by omega, ⟨c, rfl, h4⟩, b, hb, h5⟩
  · rintro ⟨⟨ht, htn, hn⟩, hs, ⟨c', hc', hc⟩, b, hb, hbl⟩
    cases hc'
    unfold Py.dkgVerifyCommitments
    simp only [Val.len, Val.ptr, orRaise_some, hb]
    rw [raiseIf_false (by omega), raiseIf_false (by omega), raiseIf_false (by omega),
      raiseIf_false (by rw [not_not]; exact hc), raiseIf_false (by rw [not_not]; exact hbl),
      raiseIf_false (fits (by omega) (by omega)), raiseIf_false (fits (by omega) (by omega)),
      raiseIf_false (fits (by omega) (by omega))]
    have e1 := u8_toNat (z := n) (by omega) (by omega)
    have e2 := u8_toNat (z := t) (by omega) (by omega)
    have e3 := u8_toNat (z := self) (by omega) (by omega)
    obtain ⟨N, rfl⟩ := Int.eq_ofNat_of_zero_le (show 0 ≤ n by omega)
    obtain ⟨T, rfl⟩ := Int.eq_ofNat_of_zero_le (show 0 ≤ t by omega)
    have hc2 : c.length = N * T * 32 := by exact_mod_cast hc
    rw [Int.toNat_natCast] at e1 e2
    obtain ⟨rows, hr1, hr2, hr3⟩ := rowsAt_ok (buf := c ++ [0]) (k := (u8 (N : ℤ)).toNat) (t := (u8 (T : ℤ)).toNat)
      (by rw [e1, e2, List.length_append, hc2]; omega)
    obtain ⟨ss, hs1, hs2⟩ := sharesAt_ok (buf := b ++ [0]) (k := (u8 (N : ℤ)).toNat) (by
      rw [e1, List.length_append]; omega)
    rw [hr1, C.ok_bind, hs1, C.ok_bind]
    have hself : u8 self ≠ 0 := by
      intro h0
      rw [h0] at e3
      have : (0 : UInt8).toNat = 0 := rfl
      omega
    exact handled_reached (C28_dkg_safe_partial G true scratch (u8 N) (u8 T) (u8 self) hself (by omega) (by omega)
      (fun _ => B32.ofZ ((1 : ℕ) : ZMod L)) (fun _ => Toy.randomScalar 1 (by decide) (by norm_num))
      (List.replicate (u8 (T : ℤ)).toNat zero32) List.length_replicate ss hs2 rows hr2 hr3 _
      (by rw [List.length_replicate, e1, Int.toNat_natCast]) zeroShare).2.1

/-- **C58**, `dkg_finish`: everything but the upper bound of `n` is checked and the C function handles its domain. -/
theorem C58_dkg_finish_partial (n self : ℤ) (shares : List Val) :
    (Reaches (Py.dkgFinish n shares self) → n ≤ 255 → FinishArgs n shares self) ∧
    (FinishArgs n shares self → Handled (Py.dkgFinish n shares self)) := by
  constructor
  · intro h hn
    unfold Py.dkgFinish at h
    simp only [reaches_raiseIf, reaches_orRaise, not_not] at h
    obtain ⟨h1, b, hb, h2, -⟩ := h
    exact ⟨⟨by omega, by omega, hn⟩, b, hb, h2⟩
  · rintro ⟨⟨h1, h2, h3⟩, b, hb, hl⟩
    unfold Py.dkgFinish
    rw [raiseIf_false (by omega), hb, orRaise_some, raiseIf_false (by rw [not_not]; exact hl), raiseIf_false (by omega),
      raiseIf_false (fits (by omega) (by omega))]
    have e1 := u8_toNat (z := n) (by omega) (by omega)
    obtain ⟨ss, hs1, hs2⟩ := sharesAt_ok (buf := b ++ [0]) (k := (u8 n).toNat) (by rw [e1, List.length_append]; omega)
    rw [hs1, C.ok_bind]
    refine handled_reached ?_
    unfold Dkg.finish
    rw [rd_ok (by omega), C.ok_bind]
    exact C.safe_ok _

/-- **C58**, violated: of 257 shares `dkg_finish` sums up one. -/
theorem C58_dkg_finish_violated (shares : List Val) (b : Bytes) (hb : join shares = some b) (hl : b.length = 257 * 33) :
    ¬ FinishArgs 257 shares 1 ∧ ∃ s, shareAt (b ++ [0]) 0 = .ok s ∧
      Py.dkgFinish 257 shares 1 = .reached (Dkg.finish 1 [s] { zeroShare with index := 1 }) := by
  constructor
  · rintro ⟨⟨-, -, h⟩, -⟩
    omega
  · obtain ⟨s, hs⟩ := shareAt_ok (buf := b ++ [0]) (i := 0) (by rw [List.length_append, hl]; omega)
    refine ⟨s, hs, ?_⟩
    unfold Py.dkgFinish
    rw [raiseIf_false (by decide), hb, orRaise_some, raiseIf_false (by rw [not_not, hl]; norm_num),
      raiseIf_false (by decide), raiseIf_false (by unfold Py.Fits; norm_num)]
    have e : u8 257 = 1 := rfl
    have e' : u8 1 = 1 := rfl
    have e1 : sharesAt (b ++ [0]) (UInt8.toNat 1) = .ok [s] := by
      show mapC (shareAt (b ++ [0])) [0] = _
      rw [mapC, hs, C.ok_bind]
      rfl
    rw [e, e', e1, C.ok_bind]

/-- **C58**, `dkg_reconstruct`: the C function handles its domain. Missing: nothing is checked (next theorem). -/
theorem C58_dkg_reconstruct_partial (responses : List Val) (h : ReconstructArgs responses) :
    Handled (Py.dkgReconstruct responses) := by
  obtain ⟨hr, hne⟩ := h
  obtain ⟨b, hb, hbl⟩ := join_parts hr
  obtain ⟨rs, hrs, hrl⟩ := sharesAt_ok (buf := b ++ [0]) (k := responses.length) (by rw [List.length_append, hbl]; omega)
  unfold Py.dkgReconstruct
  rw [hb, orRaise_some, hrs, C.ok_bind]
  refine handled_reached ((C28_reconstruct_safe_iff rs).2 ?_)
  rintro rfl
  exact hne (List.length_eq_zero_iff.1 hrl.symm)

/-- **C58**, violated: an empty list and shares of a wrong size reach `dkg_reconstruct`, which has undefined behaviour. -/
theorem C58_dkg_reconstruct_violated :
    (∃ c, Py.dkgReconstruct [] = .reached c ∧ ¬ c.Safe) ∧
    ∃ c, Py.dkgReconstruct [.bytes (List.replicate 31 7)] = .reached c ∧ ¬ c.Safe := by
  refine ⟨⟨_, rfl, ?_⟩, ⟨_, rfl, ?_⟩⟩
  · exact C.not_safe_ub _
  · exact C.not_safe_ub .oob

section
variable [Signing] [NoiseCrypto] [Mac]

/-- **C58**, `tpdkg_peer_start`: the C function handles its domain. Missing: nothing is checked (next theorem). -/
theorem C58_peer_start_partial (ctx : PeerState) (now eps : UInt64) (log : Bool) (ltSk msg0 : Val)
    (h : PeerStartArgs ltSk msg0) : Handled (Py.peerStart ctx now eps log ltSk msg0) := by
  obtain ⟨⟨s, rfl, hs⟩, m, rfl, hm⟩ := h
  unfold Py.peerStart
  simp only [Val.ptr, orRaise_some]
  rw [rd_ok (by rw [List.length_append, hs]; decide), C.ok_bind]
  refine handled_reached ?_
  have hl : (m ++ [0]).length = 178 := by rw [List.length_append, hm]; rfl
  unfold startPeer
  have h0 : msg0Size = 177 := rfl
  have h1 : hdrSize = 111 := rfl
  rw [h0, h1]
  obtain ⟨⟨ret, last, k⟩, hr⟩ := recvMsg_safe (now := now) (buf := m ++ [0]) (off := 0) (len := 177) (msgno := 0) (frm := 0)
    (rcp := 0xff) (pk := toB32 (((m ++ [0]).drop 111).take 32)) (sid := toB32 (((m ++ [0]).drop 79).take 32)) (eps := eps)
    (last := 0) (by omega) (by omega)
  have hlog : (if log then rd (m ++ [0]) 0 177 else .ok []) = C.ok (if log then (m ++ [0]).take 177 else []) := by
    cases log with
    | false => rfl
    | true => rw [if_pos rfl, if_pos rfl, rd_ok (by omega), List.drop_zero]
  extract_lets jp
  have hjp : (if log = true then (rd (m ++ [0]) 0 177).bind jp else (C.ok []).bind jp) =
      jp (if log then (m ++ [0]).take 177 else []) := by
    rw [← C.ok_bind (f := jp), ← hlog]
    cases log <;> rfl
  refine (congrArg C.Safe hjp).mpr ?_
  dsimp only [jp]
  rw [rd_ok (by omega), C.ok_bind, rd_ok (by omega), C.ok_bind, hr, C.ok_bind]
  dsimp only
  split
  · exact C.safe_ok _
  rw [ld_ok (by omega), C.ok_bind, ld_ok (by omega), C.ok_bind]
  split
  · exact C.safe_ok _
  split
  · exact C.safe_ok _
  split
  · exact C.safe_ok _
  rw [rd_ok (by omega), C.ok_bind]
  exact C.safe_ok _

/-- **C58**, violated: keys and first messages of any size reach `tpdkg_start_peer`, which reads beyond them. -/
theorem C58_peer_start_violated (ctx : PeerState) (now eps : UInt64) (log : Bool) :
    (∀ s m : Bytes, s.length < 63 → ∃ c, Py.peerStart ctx now eps log (.bytes s) (.bytes m) = .reached c ∧ ¬ c.Safe) ∧
    ∀ s m : Bytes, s.length = 64 → m.length < 142 →
      ∃ c, Py.peerStart ctx now eps log (.bytes s) (.bytes m) = .reached c ∧ ¬ c.Safe := by
  refine ⟨fun s m hs => ⟨_, rfl, ?_⟩, fun s m hs hm => ⟨_, rfl, ?_⟩⟩
  · have e : rd (s ++ [0]) 0 64 = .ub .oob := by
      unfold rd
      rw [if_neg (by rw [List.length_append, List.length_singleton]; omega)]
    rw [e, C.ub_bind]
    exact C.not_safe_ub _
  · rw [rd_ok (by rw [List.length_append, hs]; decide), C.ok_bind]
    have e : ∀ k, 143 ≤ k → rd (m ++ [0]) 0 k = .ub .oob := by
      intro k hk
      unfold rd
      rw [if_neg (by rw [List.length_append, List.length_singleton]; omega)]
    have e2 : rd (m ++ [0]) hdrSize 32 = .ub .oob := by
      unfold rd
      rw [if_neg (by rw [List.length_append, List.length_singleton]; show ¬ 111 + 32 ≤ _; omega)]
    unfold startPeer
    cases log with
    | true =>
      rw [if_pos rfl, e _ (by decide), C.ub_bind]
      exact C.not_safe_ub _
    | false =>
      rw [if_neg (by decide), C.ok_bind, e2, C.ub_bind]
      exact C.not_safe_ub _

theorem join_keys : ∀ {vs : List Val}, (∀ v ∈ vs, BytesOf v 32) → ∃ b, join vs = some b ∧ b.length = 32 * vs.length := by
  intro vs
  induction vs with
  | nil => intro _; exact ⟨[], rfl, rfl⟩
  | cons v vs ih =>
    intro h
    obtain ⟨b, rfl, hb⟩ := h v List.mem_cons_self
    obtain ⟨bs, hbs, hl⟩ := ih fun v hv => h v (List.mem_cons_of_mem _ hv)
    unfold join at hbs ⊢
    rw [Option.map_eq_some_iff] at hbs
    obtain ⟨l, hl1, rfl⟩ := hbs
    refine ⟨b ++ l.flatten, ?_, ?_⟩
    · rw [List.mapM_cons]
      show (Option.bind (some b) _).map _ = _
      rw [Option.bind_some, hl1]
      rfl
    · rw [List.length_append, hb, hl, List.length_cons]
      ring

theorem startTp_n {ctx c : TP} {now eps : UInt64} {n t : UInt8} {name msg0 m : Bytes} {sid seed : B32}
    (h : TpDkg.startTp ctx now eps n t name sid seed msg0 = .ok (0, c, m)) : c.n = n := by
  unfold TpDkg.startTp at h
  split at h
  · cases h
  split at h
  · cases h
  split at h
  · cases h
  split at h
  · cases h
  simp only [C.bind_eq_ok] at h
  obtain ⟨_, -, _, -, _, -, _, -, _, -, h⟩ := h
  cases h
  rfl

/-- **C58**, `tpdkg_start_tp`: the C functions handle their domain. Missing: nothing is checked but by the C function (next
theorem). -/
theorem C58_start_tp_partial (ctx : TP) (now eps : UInt64) (sid seed : B32) (n t : ℤ) (name : Val) (ltPks : List Val)
    (h : TpStartArgs n t name ltPks) : Handled (Py.startTp ctx now eps sid seed n t name ltPks) := by
  obtain ⟨⟨ht, htn, hn⟩, ⟨b, rfl, hb1, hb2⟩, hl, hk⟩ := h
  unfold Py.startTp
  simp only [Val.len, Val.ptr, orRaise_some]
  rw [raiseIf_false (fits (by omega) (by omega)), raiseIf_false (fits (by omega) (by omega)),
    rd_ok (by rw [List.length_append]; omega), C.ok_bind]
  refine handled_reached ?_
  obtain ⟨r, c, m, e, -, -⟩ := C51_tp_accepts_partial ctx now eps (u8 n) (u8 t) (((b ++ [0]).drop 0).take b.length)
    (List.replicate msg0Size 0) sid seed
  rw [e, C.ok_bind]
  dsimp only
  split
  · exact C.safe_ok _
  rename_i hr
  rw [not_not] at hr
  subst hr
  obtain ⟨ks, hks, hkl⟩ := join_keys hk
  rw [hks, startTp_n e]
  dsimp only
  have e1 := u8_toNat (z := n) (by omega) (by omega)
  obtain ⟨ys, hys, -⟩ := mapC_ok (P := fun _ => True) (f := fun i => b32At (ks ++ [0]) (32 * i)) (l := List.range (u8 n).toNat) (fun i hi => by
    rw [List.mem_range, e1] at hi
    obtain ⟨k, hk⟩ := b32At_ok (buf := ks ++ [0]) (off := 32 * i) (by
      rw [List.length_append, hkl, List.length_singleton]
      omega)
    exact ⟨k, hk, trivial⟩)
  rw [hys, C.ok_bind]
  exact C.safe_ok _

/-- **C58**, violated: too few long-term keys are accepted, and the trusted party reads beyond them. `n` and `t` are passed
modulo 256. -/
theorem C58_start_tp_violated (ctx : TP) (now eps : UInt64) (sid seed : B32) :
    (∃ c, Py.startTp ctx now eps sid seed 3 2 (.bytes [65]) [] = .reached c ∧ ¬ c.Safe) ∧
    ∀ name ltPks, Py.startTp ctx now eps sid seed 259 258 name ltPks = Py.startTp ctx now eps sid seed 3 2 name ltPks := by
  constructor
  · unfold Py.startTp
    simp only [Val.len, Val.ptr, orRaise_some]
    rw [raiseIf_false (by unfold Py.Fits; norm_num), raiseIf_false (by unfold Py.Fits; norm_num)]
    refine ⟨_, rfl, ?_⟩
    obtain ⟨r, c, m, e, hr, -⟩ := C51_tp_accepts_partial ctx now eps (u8 3) (u8 2) [65] (List.replicate msg0Size 0) sid seed
    obtain rfl := hr.2 ⟨by decide, by decide, by decide, by decide, by decide, List.length_replicate⟩
    have e0 : rd ([65] ++ [0] : Bytes) 0 ([65] : Bytes).length = .ok [65] := rfl
    rw [e0, C.ok_bind, e, C.ok_bind]
    dsimp only
    rw [if_neg (by decide), startTp_n e]
    exact C.not_safe_ub .oob
  · intro name ltPks
    unfold Py.startTp
    have e1 : u8 259 = u8 3 := rfl
    have e2 : u8 258 = u8 2 := rfl
    rw [e1, e2]
    congr 1

/-- **C58**, the messages of a running protocol: `tpdkg_tp_next` and `tpdkg_peer_next` are called only with as many bytes
as the C functions announce. Missing: strings of this length are passed, too. -/
theorem C58_next_partial (clock : ℕ → UInt64) (log mlock : Bool) (scratch : B32) (rnd : Rnd) (tp : TP) (c : PeerState)
    (msg : Val) (size : ℕ) (hsize : tpInputSize tp = .ok size) :
    (Reaches (Py.tpNext G clock log scratch tp msg) → msg.len = some size ∧
      ∃ m : Bytes, m.length = size ∧ Py.tpNext G clock log scratch tp msg =
        .reached (TpDkg.tpNext G clock log scratch tp m (List.replicate (tpOutputSize tp) 0))) ∧
    (Reaches (Py.peerNext G clock log mlock scratch rnd c msg) → msg.len = some (peerInputSize c) ∧
      ∃ m : Bytes, m.length = peerInputSize c ∧ Py.peerNext G clock log mlock scratch rnd c msg =
        .reached (TpDkg.peerNext G clock log mlock scratch rnd c m (List.replicate (peerOutputSize c) 0))) := by
  have hptr : ∀ (p : Bytes) (k : ℕ), msg.len = some k → msg.ptr = some p → k ≤ p.length := by
    intro p k h1 h2
    cases msg with
    | bytes b => cases h1; cases h2; rw [List.length_append]; omega
    | array b => cases h1; cases h2; exact le_rfl
    | bytearray b => cases h2
    | str s =>
      cases h1; cases h2
      rw [List.length_append, List.length_flatMap]
      have : s.length ≤ (s.map fun c => (wchar c).length).sum := by
        have e : s.map (fun c => (wchar c).length) = List.replicate s.length 4 := by
          rw [List.eq_replicate_iff]
          refine ⟨List.length_map _, fun x hx => ?_⟩
          obtain ⟨c, -, rfl⟩ := List.mem_map.1 hx
          unfold wchar
          rw [List.length_reverse, beBytes_length]
        rw [e, List.sum_replicate, smul_eq_mul]
        omega
      omega
    | other n => cases h2
  constructor
  · intro h
    unfold Py.tpNext at h ⊢
    rw [hsize] at h ⊢
    dsimp only at h ⊢
    simp only [reaches_raiseIf, reaches_orRaise, not_not] at h
    obtain ⟨len, hl, rfl, p, hp, -⟩ := h
    have hk := hptr p len hl hp
    refine ⟨hl, p.take len, by rw [List.length_take]; omega, ?_⟩
    rw [hl, orRaise_some, raiseIf_false (by rw [not_not]), hp, orRaise_some, rd_ok (by omega), C.ok_bind, List.drop_zero]
  · intro h
    unfold Py.peerNext at h ⊢
    simp only [reaches_raiseIf, reaches_orRaise, not_not] at h
    obtain ⟨len, hl, e, p, hp, -⟩ := h
    have hk := hptr p len hl hp
    refine ⟨by rw [hl, e], p.take len, by rw [List.length_take]; omega, ?_⟩
    rw [hl, orRaise_some, raiseIf_false (by rw [not_not]; exact e), hp, orRaise_some, ← e, rd_ok (by omega), C.ok_bind,
      List.drop_zero]

end

end

/-! ## The hypotheses can be met -/

theorem BytesOf_replicate (k : ℕ) (x : UInt8) : BytesOf (.bytes (List.replicate k x)) k := ⟨_, rfl, List.length_replicate⟩

example : BlindArgs (.bytes [104, 105]) := ⟨_, rfl, by decide⟩

example : FinalizeArgs (.bytes [104, 105]) (.bytes (List.replicate 32 9)) := ⟨⟨_, rfl, by decide⟩, BytesOf_replicate _ _⟩

example : CoeffArgs 3 (.bytes [1, 3, 5]) := ⟨by decide, _, rfl, by decide⟩

example : CreateArgs (.bytes (List.replicate 32 9)) 5 3 := ⟨BytesOf_replicate _ _, by decide, by decide, by decide⟩

example : CombineArgs [.bytes (List.replicate 33 1), .bytes (List.replicate 33 2)] :=
  ⟨by
    intro r hr
    simp only [List.mem_cons, List.not_mem_nil, or_false] at hr
    rcases hr with rfl | rfl <;> exact BytesOf_replicate _ _, by decide⟩

example : EvaluateArgs (.bytes (List.replicate 33 1)) (.bytes (List.replicate 32 9)) 1 [1, 2, 4] :=
  ⟨BytesOf_replicate _ _, BytesOf_replicate _ _, by decide, by decide, by decide⟩

example : TdhArgs (.bytes (List.replicate 33 1)) (.bytes (List.replicate 33 1)) (.bytes (List.replicate 32 9))
    (.bytes [1, 2, 3]) :=
  ⟨BytesOf_replicate _ _, BytesOf_replicate _ _, BytesOf_replicate _ _, _, rfl, by decide⟩

example : StartArgs 5 3 := ⟨by decide, by decide, by decide⟩

example : VerifyArgs 3 2 1 (.bytes (List.replicate (3 * 2 * 32) 9)) (List.replicate 3 (.bytes (List.replicate 33 1))) :=
  ⟨⟨by decide, by decide, by decide⟩, by decide, ⟨_, rfl, by decide +kernel⟩, List.replicate (3 * 33) 1, rfl, by decide +kernel⟩

example : FinishArgs 3 (List.replicate 3 (.bytes (List.replicate 33 1))) 1 :=
  ⟨by decide, List.replicate (3 * 33) 1, rfl, by decide +kernel⟩

example : ReconstructArgs [.bytes (List.replicate 33 1), .bytes (List.replicate 33 2)] :=
  ⟨by
    intro r hr
    simp only [List.mem_cons, List.not_mem_nil, or_false] at hr
    rcases hr with rfl | rfl <;> exact BytesOf_replicate _ _, by decide⟩

example : PeerStartArgs (.bytes (List.replicate 64 1)) (.bytes (List.replicate 177 2)) :=
  ⟨BytesOf_replicate _ _, BytesOf_replicate _ _⟩

example : TpStartArgs 3 2 (.bytes [65]) (List.replicate 3 (.bytes (List.replicate 32 7))) :=
  ⟨by decide, ⟨_, rfl, by decide, by decide⟩, rfl, fun k hk => by
    rw [List.eq_of_mem_replicate hk]
    exact BytesOf_replicate _ _⟩

end Verif.Props
