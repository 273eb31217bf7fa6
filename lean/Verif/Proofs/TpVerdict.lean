import Verif.Spec.Verdict
import Verif.Proofs.TpNext
import Verif.Props.Dkg

/-!
# Verdicts of the trusted party
-/

set_option linter.unusedSectionVars false

namespace Verif.TpDkg

open Wire Spec.Wire Spec Ristretto

variable [Signing] [NoiseCrypto] [Mac] (G : Type) [Ristretto G]

theorem slice_slice {α : Type} {b : List α} {o l o' l' : ℕ} (h : o' + l' ≤ l) : slice (slice b o l) o' l' = slice b (o + o') l' := by
  unfold slice
  rw [List.drop_take, List.take_take, List.drop_drop, Nat.min_eq_left (by omega)]

theorem Stored.recv {c : TP} {i : ℕ} {x : UInt8} (wf : WF c) (hi : i < c.n.toNat) (hx : 1 ≤ x.toNat ∧ x.toNat ≤ c.n.toNat)
    (h : Stored c i x) (now : UInt64) : ∃ l k, recvMsg now c.encShares (m8Off c i x) 256 8 (idx i) x (pkOf c i) c.sid c.eps
      (htonll (u64 (slice c.encShares (m8Off c i x + 71) 8))) = .ok (0, l, k) := by
  obtain ⟨sig, hd, body, h1, h2, h3, h4, h5, h6, h7, h8, h9⟩ := h
  have hb : m8Off c i x + 256 ≤ c.encShares.length := by
    unfold m8Off
    rw [wf.encShares]
    have := Nat.mul_le_mul_right 256 (mul_add_lt hi (show x.toNat - 1 < c.n.toNat by omega))
    omega
  have hts : htonll (u64 (slice c.encShares (m8Off c i x + 71) 8)) = hd.ts := by
    have e : slice c.encShares (m8Off c i x + 71) 8 = beBytes 8 hd.ts.toNat := by
      have e1 := slice_slice (b := c.encShares) (o := m8Off c i x) (l := 256) (o' := 71) (l' := 8) (by omega)
      rw [← e1]
      unfold m8Off
      rw [h1]
      exact encode_ts sig hd body
    apply UInt64.toNat_inj.1
    rw [e, htonll_u64 (by simp), beNat_beBytes, Nat.mod_eq_of_lt (by simpa using hd.ts.toNat_lt)]
  rw [hts, recvMsg_encode hb (by omega) h1]
  have hfrm : hd.frm = idx i := by
    apply UInt8.toNat_inj.1
    rw [h4, idx_toNat (by have := wf.n_le; omega)]
  have hc : checkTs now c.eps hd.ts hd.ts = (0, hd.ts, 0) := by
    unfold checkTs
    have h0 : hd.ts ≠ 0 := by intro h; rw [h] at h8; simp at h8
    rw [if_neg h0, if_neg (by simp), if_neg]
    rw [gt_iff_lt, UInt64.lt_iff_toNat_lt, UInt64.toNat_add, Nat.mod_eq_of_lt (by omega)]
    omega
  refine ⟨hd.ts, 0, ?_⟩
  unfold recvPure
  rw [hc]
  simp [h2, h3, hfrm, h5, h6, pkOf]
  simpa using h7

theorem plain_eq {plain : Bytes} {x : UInt8} (hl : plain.length = 33) (h0 : plain.getD 0 0 = x) :
    plain = x :: (toB32 (slice plain 1 32)).toList := by
  cases plain with
  | nil => simp at hl
  | cons a l =>
    simp at h0 hl
    subst h0
    congr 1
    have e : slice (a :: l) 1 32 = l := by unfold slice; simp [List.take_of_length_le, hl]
    rw [e, toB32_list hl]

theorem Opened.verdict {scratch : B32} {c : TP} {i : ℕ} {x : UInt8} {key : B32} {e : Int} (wf : WF c) (ht : 1 ≤ c.t.toNat)
    (hi : i < c.n.toNat) (hx : 1 ≤ x.toNat ∧ x.toNat ≤ c.n.toNat) (hne : idx i ≠ x) (h : Opened G scratch c i x key e) :
    (ShareRight G c i x key ∧ e = 128) ∨
      (¬ ShareRight G c i x key ∧ (e = 3 ∨ e = 4 ∨ e = 5 ∨ e = 127 ∨ e = 129)) := by
  classical
  have hb : m8Off c i x + 256 ≤ c.encShares.length := by
    unfold m8Off
    rw [wf.encShares]
    have := Nat.mul_le_mul_right 256 (mul_add_lt hi (show x.toNat - 1 < c.n.toNat by omega))
    omega
  have e1 : slice (storedBody c i x) 64 49 = boxOf c i x := by
    unfold storedBody boxOf m8Off
    rw [slice_slice (by omega)]
  have e2 : slice (storedBody c i x) 113 32 = macOf c i x := by
    unfold storedBody macOf m8Off
    rw [slice_slice (by omega)]
  have hbox : (boxOf c i x).length = 49 := slice_length (by omega)
  have hdl : (dealt c i).length = c.t.toNat := by
    apply slice_length
    rw [wf.commitments]
    have := Nat.mul_le_mul_right c.t.toNat (show i + 1 ≤ c.n.toNat from hi)
    rw [Nat.add_mul] at this
    omega
  have hx0 : x ≠ 0 := by rintro rfl; simp at hx
  unfold ShareRight
  rw [e1, e2]
  rcases h with ⟨h1, h2⟩ | ⟨h1, h | ⟨plain, h2, h⟩⟩
  · exact .inr ⟨fun h => h1 h.1, .inl h2⟩
  · refine .inr ⟨?_, .inr (.inl h.2)⟩
    rintro ⟨_, v, h3, _⟩
    rw [h.1] at h3; cases h3
  · have hl : plain.length = 33 := by
      have := NoiseCrypto.dec_length _ _ _ _ _ h2; omega
    rcases h with ⟨h3, h4⟩ | ⟨h3, r, h4, h5⟩
    · refine .inr ⟨?_, .inr (.inr (.inl h4))⟩
      rintro ⟨_, v, h5, _⟩
      rw [h2, Option.some.injEq] at h5
      rw [h5] at h3
      exact h3 rfl
    · have hp := plain_eq hl h3
      have hlen : c.t.toNat ≤ (commitsOf c i).length := by
        have : (dealt c i).length ≤ (commitsOf c i).length := by
          unfold dealt slice commitsOf; simp
        omega
      have htk : (commitsOf c i).take c.t.toNat = dealt c i := rfl
      have hv : Dkg.verifyCommitment G scratch c.t x (idx i) (commitsOf c i) ⟨x, toB32 (slice plain 1 32)⟩ =
          Dkg.verifyCommitment G scratch c.t x (idx i) (dealt c i) ⟨x, toB32 (slice plain 1 32)⟩ := by
        rw [Dkg.verifyCommitment_eq G scratch _ _ _ _ _ ht hlen hx0 hne,
          Dkg.verifyCommitment_eq G scratch _ _ _ _ _ ht (Nat.le_of_eq hdl.symm) hx0 hne]
        simp only [Dkg.Consistent, htk, List.take_of_length_le (Nat.le_of_eq hdl)]
      rw [hv] at h4
      have hiff := Props.C23_verify_iff G scratch c.t x (idx i) (dealt c i) ⟨x, toB32 (slice plain 1 32)⟩ ht hdl hx0 hne
      obtain ⟨⟨r', h6, h7⟩, _⟩ :=
        Props.C23_verify_malformed_iff G scratch c.t x (idx i) (dealt c i) ⟨x, toB32 (slice plain 1 32)⟩ ht hdl hx0 hne
      rw [h4] at h6
      obtain rfl : r = r' := by simpa using h6
      rw [h4] at hiff
      by_cases hr : r = 0
      · subst hr
        obtain ⟨Cs, hCs⟩ := hiff.1 rfl
        exact .inl ⟨⟨h1, _, by rw [h2, ← hp], Cs, hCs⟩, by omega⟩
      · refine .inr ⟨?_, by omega⟩
        rintro ⟨_, v, h8, Cs, h9⟩
        apply hr
        rw [h2, Option.some.injEq] at h8
        have hvv : toB32 (slice plain 1 32) = v := by
          rw [h8]
          have : slice (x :: v.toList) 1 32 = v.toList := by unfold slice; simp [List.take_of_length_le]
          rw [this, toB32_toList]
        have := hiff.2 ⟨Cs, by rw [hvv]; exact h9⟩
        simpa using this

end Verif.TpDkg
