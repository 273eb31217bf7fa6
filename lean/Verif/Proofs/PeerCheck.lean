import Verif.Spec.Agreement
import Verif.Proofs.PeerNext

/-!
# What a peer checks before it computes its share
-/

set_option linter.unusedSectionVars false

namespace Verif.TpDkg

open H Wire

variable [Signing] [Hashes] [NoiseCrypto] [Mac] (G : Type) [Ristretto G]
variable {clock : ℕ → UInt64} {log mlock : Bool} {scratch : B32} {rnd : Rnd} {c c' : PeerState} {input out o : Bytes}
  {r : Int}

namespace Peer

theorem toB32s_slice (t : ℕ) (input : Bytes) (off : ℕ) :
    toB32s t (slice input off (32 * t)) = (List.range t).map fun k => toB32 (slice input (off + 32 * k) 32) := by
  unfold toB32s
  apply List.map_congr_left
  intro k hk
  have hk : k < t := List.mem_range.1 hk
  congr 1
  exact slice_sub (by omega)

/-- The commitments after step 4. -/
theorem com_step13 {s : PRun} (w : PWF s.ctx) : Wp (step13 clock log input) True (fun r _ => r ≠ 0) (fun _ s' =>
    input.length = 111 + (111 + 32 * s.ctx.t.toNat) * s.ctx.n.toNat ∧
    ∀ j < s.ctx.n.toNat, slice s'.ctx.commitments (j * s.ctx.t.toNat) s.ctx.t.toNat =
      commitmentsIn s.ctx.t.toNat input j) s := by
  set f : PeerState → List B32 := fun c => c.commitments with hf
  have F : Stamps f := ⟨fun _ _ _ => rfl, fun _ _ _ _ => rfl⟩
  unfold step13
  rw [wp_bind, wp_get]
  dsimp only
  rw [wp_ite]
  refine ⟨fun _ h => absurd h (by decide), fun hlen => ?_⟩
  rw [wp_ite]
  refine ⟨fun _ h => absurd h (by decide), fun _ => ?_⟩
  rw [wp_bind]
  refine wp_of_both (R := Keep f) (pres_dump _ _ _ _) (err_dump _ _ _ _) (fun _ _ _ h => h) fun _ s1 h1 _ => ?_
  rw [wp_bind]
  refine wp_of_both (pres_recvTp F _ _ _ _) (err_recvTp _ _ _ _) (fun _ _ _ h => h) fun r s2 h2 hr => ?_
  rw [wp_ite]
  refine ⟨fun _ h => ?_, fun _ => ?_⟩
  · omega
  rw [wp_bind, wp_transcript, wp_bind]
  have hlen' : input.length = 111 + (111 + 32 * s.ctx.t.toNat) * s.ctx.n.toNat := by
    have : msg6Size s.ctx.t = 111 + 32 * s.ctx.t.toNat := rfl
    rw [← this]
    exact not_not.1 hlen
  refine wp_forN (I := fun k s' => s'.ctx.commitments.length = s.ctx.n.toNat * s.ctx.t.toNat ∧
      ∀ j < k, slice s'.ctx.commitments (j * s.ctx.t.toNat) s.ctx.t.toNat = commitmentsIn s.ctx.t.toNat input j)
    ⟨?_, fun j hj => absurd hj (Nat.not_lt_zero j)⟩ ?_ ?_
  · show (f s2.ctx).length = _
    rw [h2.1, h1.1]
    exact w.commitments
  · intro k s3 hk hI
    unfold step13Body
    rw [wp_bind]
    refine wp_of_both (R := Keep f) (pres_dump _ _ _ _) (err_dump _ _ _ _) (fun _ _ _ h => h) fun _ s4 h4 _ => ?_
    rw [wp_bind]
    refine wp_of_both (R := Keep f) (pres_sigPkOf _) (err_sigPkOf _) (fun _ _ _ h => h) fun pk s5 h5 _ => ?_
    rw [wp_bind]
    refine wp_of_both (pres_recv F _ _ _ _ _ _ _ _) (err_recv _ _ _ _ _ _ _ _) (fun _ _ _ h => h) fun r s6 h6 _ => ?_
    rw [wp_ite]
    refine ⟨fun _ => by rw [wp_ret]; decide, fun _ => ?_⟩
    rw [wp_bind]
    have e : f s6.ctx = f s3.ctx := h6.1.trans (h5.1.trans h4.1)
    have e' : s6.ctx.commitments = s3.ctx.commitments := e
    refine wp_lift_of trivial fun data hdata => ?_
    have hdata' : data = slice input (hdrSize + k * msg6Size s.ctx.t + hdrSize) (32 * s.ctx.t.toNat) := by
      unfold rd at hdata
      split at hdata
      · cases hdata; rfl
      · cases hdata
    rw [wp_bind]
    have hk1 : (k + 1) * s.ctx.t.toNat ≤ s.ctx.n.toNat * s.ctx.t.toNat := Nat.mul_le_mul_right _ hk
    rw [Nat.add_mul, Nat.one_mul] at hk1
    have hle : k * s.ctx.t.toNat + (toB32s s.ctx.t.toNat data).length ≤ s6.ctx.commitments.length := by
      rw [toB32s_length, e', hI.1]
      exact hk1
    rw [wp_setCommitments hle]
    have rest : Pres (Keep f) (fun _ => True) (do
        encrypt [] (k * msg8Size + hdrSize) 64 k 5
        let s ← H.get
        let share ← H.lift (ld s.ctx.shares k)
        encrypt (shareBytes share) (k * msg8Size + hdrSize + 64) 49 k 6
        commitKey (k * msg8Size + hdrSize + 64) k
        send clock (k * msg8Size) msg8Size 8 (idx k)
        dumpOut log (k * msg8Size) msg8Size) := by
      ppres [pres_encrypt (fun _ _ _ => rfl) _ _ _ _ _, pres_commitKey _ _]
    have rest' : Err (fun _ => True) (do
        encrypt [] (k * msg8Size + hdrSize) 64 k 5
        let s ← H.get
        let share ← H.lift (ld s.ctx.shares k)
        encrypt (shareBytes share) (k * msg8Size + hdrSize + 64) 49 k 6
        commitKey (k * msg8Size + hdrSize + 64) k
        send clock (k * msg8Size) msg8Size 8 (idx k)
        dumpOut log (k * msg8Size) msg8Size) :=
      err_bind (err_encrypt _ _ _ _ _ (by decide)) fun _ _ => err_bind err_get fun _ _ => err_bind err_lift fun _ _ =>
        err_bind (err_encrypt _ _ _ _ _ (by decide)) fun _ _ => err_bind (err_commitKey _ _) fun _ _ =>
        err_bind (err_send _ _ _ _ _) fun _ _ => err_dumpOut _ _ _
    refine wp_of_both rest rest' (fun _ _ _ h => h) fun _ s7 h7 _ => ?_
    have e7 : s7.ctx.commitments = splice s6.ctx.commitments (k * s.ctx.t.toNat) (toB32s s.ctx.t.toNat data) := h7.1
    refine ⟨by rw [e7, splice_length hle, e', hI.1], fun j hj => ?_⟩
    rw [e7]
    rcases Nat.lt_or_eq_of_le (Nat.le_of_lt_succ hj) with hj | rfl
    · have : (j + 1) * s.ctx.t.toNat ≤ k * s.ctx.t.toNat := Nat.mul_le_mul_right _ hj
      rw [Nat.add_mul, Nat.one_mul] at this
      rw [slice_splice_before hle this, e']
      exact hI.2 j hj
    · have := slice_splice_same hle
      rw [toB32s_length] at this
      rw [this, hdata', toB32s_slice]
      rfl
  · intro s' hI
    exact ⟨hlen', hI.2⟩

theorem err_decrypt (b : Bytes) (l i : ℕ) (code : Int) (h : code ≠ 0) : Err (fun _ => True) (decrypt b l i code) := by
  unfold decrypt
  err [err_getDev, err_setIns _ _, err_ret h]

theorem err_step15Body (i : ℕ) : Err (fun _ => True) (step15Body clock log input i) := by
  unfold step15Body setXshare
  err [err_dump _ _ _ _, err_sigPkOf _, err_decrypt _ _ _ _ (by decide)]

theorem same_dumpOut (log : Bool) (off len : ℕ) : Pres (fun a b => b = a) (fun _ => True) (dumpOut log off len) :=
  fun s => by
  unfold dumpOut dump
  rw [wp_bind, wp_get, wp_ite]
  refine ⟨fun _ => ?_, fun _ => by rw [wp_pure]; exact ⟨rfl, trivial⟩⟩
  rw [wp_bind]
  exact wp_lift_of trivial fun _ _ => by rw [wp_pure]; exact ⟨rfl, trivial⟩

/-- What was verified and announced in step 5. -/
theorem chk_step15 {s : PRun} : Wp (step15 G clock log scratch input) True (fun r _ => r ≠ 0)
    (fun _ s' => s'.ctx.commitments = s.ctx.commitments ∧ ∃ ret fails len,
      Dkg.verifyCommitments G scratch s.ctx.n s.ctx.t s.ctx.index
        ((List.range s.ctx.n.toNat).map fun j => slice s.ctx.commitments (j * s.ctx.t.toNat) s.ctx.t.toNat)
        s'.ctx.xshares (List.replicate s.ctx.n.toNat 0) = .ok (ret, fails, len) ∧ s'.out[111]? = some len) s := by
  set f : PeerState → List B32 × UInt8 × UInt8 × UInt8 := fun c => (c.commitments, c.n, c.t, c.index) with hf
  have F : Stamps f := ⟨fun _ _ _ => rfl, fun _ _ _ _ => rfl⟩
  unfold step15
  rw [wp_bind, wp_get]
  dsimp only
  rw [wp_ite]
  refine ⟨fun _ h => absurd h (by decide), fun hlen => ?_⟩
  rw [wp_ite]
  refine ⟨fun _ h => absurd h (by decide), fun ho => ?_⟩
  rw [wp_bind]
  have hb : Pres (Keep f) (fun _ => True) (H.forN s.ctx.n.toNat (step15Body clock log input)) := by
    unfold step15Body
    ppres [pres_decrypt (fun _ _ _ => rfl) _ _ _ _, pres_setXshare (fun _ _ _ => rfl) _ _]
  have hb' : Err (fun _ => True) (H.forN s.ctx.n.toNat (step15Body clock log input)) :=
    err_forN fun i => err_step15Body i
  refine wp_of_both hb hb' (fun _ _ _ h => h) fun _ s1 h1 _ => ?_
  rw [wp_bind, wp_get, wp_bind]
  refine wp_lift_of trivial fun cs hcs => ?_
  rw [wp_bind]
  refine wp_lift_of trivial fun v hv => ?_
  obtain ⟨ret, fails, len⟩ := v
  have e := h1.1
  simp only [hf, Prod.mk.injEq] at e
  obtain ⟨e1, e2, e3, e4⟩ := e
  have hcs' : cs = slice s1.ctx.commitments 0 (s.ctx.n.toNat * s.ctx.t.toNat) := by
    unfold rd at hcs
    split at hcs
    · cases hcs; rfl
    · cases hcs
  have hrows : rows s.ctx.n.toNat s.ctx.t.toNat cs =
      (List.range s.ctx.n.toNat).map fun j => slice s.ctx.commitments (j * s.ctx.t.toNat) s.ctx.t.toNat := by
    unfold rows
    apply List.map_congr_left
    intro j hj
    have hj : j + 1 ≤ s.ctx.n.toNat := List.mem_range.1 hj
    have := Nat.mul_le_mul_right s.ctx.t.toNat hj
    rw [Nat.add_mul, Nat.one_mul] at this
    rw [hcs', e1]
    show slice (slice _ _ _) _ _ = _
    rw [slice_sub this, Nat.zero_add]
  rw [hrows, e2, e4] at hv
  dsimp only
  have hol : s1.out.length = 112 + s.ctx.n.toNat := by
    rw [h1.2, not_not.1 ho]
    unfold msg9Size
    omega
  rw [wp_bind]
  unfold setOut
  rw [wp_bind, wp_get, wp_bind]
  refine wp_lift_of trivial fun o1 ho1 => ?_
  rw [wp_modify, wp_bind, wp_bind, wp_get, wp_bind]
  refine wp_lift_of trivial fun o2 ho2 => ?_
  rw [wp_modify, wp_bind]
  have hl1 := wr_length ho1
  have hl2 := wr_length ho2
  have hget : o2[111]? = some len := by
    have hle : hdrSize + [len].length ≤ o1.length := by
      rw [hl1, hol]
      show 111 + 1 ≤ _
      omega
    rw [wr_ok hle] at ho2
    cases ho2
    have : (List.take hdrSize o1).length = 111 := by
      rw [List.length_take]
      show min 111 _ = 111
      have : 111 + 1 ≤ o1.length := hle
      omega
    rw [List.append_assoc, List.getElem?_append_right (by rw [this]), this]
    rfl
  refine wp_of_both (same_dumpOut _ _ _) (err_dumpOut _ _ _) (fun _ _ _ h => h) fun _ s2 h2 _ => ?_
  subst h2
  rw [wp_bind, wp_send (by show 0 + 111 ≤ o2.length; rw [hl2, hl1, hol]; omega), wp_bind]
  refine wp_of_both (same_dumpOut _ _ _) (err_dumpOut _ _ _) (fun _ _ _ h => h) fun _ s3 h3 _ => ?_
  subst h3
  rw [wp_pure]
  refine ⟨e1, ret, fails, len, hv, ?_⟩
  dsimp only
  unfold splice
  rw [header_length, List.take_zero, List.nil_append, List.getElem?_append_right (by rw [header_length]), header_length,
    List.getElem?_drop, ← hget]

end Peer

end Verif.TpDkg
