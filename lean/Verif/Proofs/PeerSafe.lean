import Verif.Proofs.PeerPtr
import Verif.Proofs.PeerNext
import Verif.Proofs.PeerComplaints
import Verif.Props.Dkg
import Verif.Spec.Session

/-!
# Memory safety of the peers
-/

set_option linter.unusedSectionVars false

namespace Verif.TpDkg

open H Wire Noise

/-- No pointer to a session is indeterminate, and the pointer to the device can be used. -/
structure Init (c : PeerState) : Prop where
  dev : c.dev.Usable
  outs : ∀ p ∈ c.outs, p ≠ .uninit
  ins : ∀ p ∈ c.ins, p ≠ .uninit

namespace Peer

variable [Signing] [Hashes] [NoiseCrypto]
variable {clock : ℕ → UInt64} {log mlock : Bool} {scratch : B32} {rnd : Rnd} {input : Bytes} {s : PRun}

theorem mem_set_of {α : Type} {P : α → Prop} {l : List α} {i : ℕ} {a : α} (h : ∀ p ∈ l, P p) (ha : P a) :
    ∀ p ∈ l.set i a, P p := by
  intro p hp
  rcases List.mem_or_eq_of_mem_set hp with h' | rfl
  · exact h p h'
  · exact ha

theorem getElem_set_of {α : Type} {P : α → Prop} {l : List α} {i j : ℕ} {a : α}
    (h : ∀ k (hk : k < l.length), j ≤ k → P l[k]) (ha : P a) :
    ∀ k (hk : k < (l.set i a).length), j ≤ k → P (l.set i a)[k] := by
  intro k hk hj
  rw [List.getElem_set]
  split
  · exact ha
  · exact h k (by simpa using hk) hj

theorem safe5 (w : PWF s.ctx) (hs : Init s.ctx) (hin : input.length = 175 * s.ctx.n.toNat + 111)
    (hout : s.out.length = 159 * s.ctx.n.toNat) :
    Wp (step5 clock log rnd input) False (fun e s' => e ≠ 0 ∧ Init s'.ctx)
      (fun _ s' => Init s'.ctx ∧ ∃ dv, s'.ctx.dev = .live dv) s := by
  obtain ⟨n, hn⟩ : ∃ n, s.ctx.n.toNat = n := ⟨_, rfl⟩
  rw [hn] at hin hout
  refine wp_step5 hn hin hout (fun _ s' => PWF s'.ctx ∧ s'.ctx.n = s.ctx.n ∧ s'.out.length = 159 * n ∧ Init s'.ctx ∧
    ∃ dv, s'.ctx.dev = .live dv) ?_ ?_ ?_ ?_
  · intro r last k hr _
    exact ⟨by have := recvMsg_range hr; omega, hs.dev, hs.outs, hs.ins⟩
  · intro last k _
    exact ⟨⟨w.t_pos, w.t_lt, w.n_le, w.lastTs, w.sigPks, w.noisePks, w.outs, w.ins, w.shares, w.xshares, w.mine,
      w.commitments, w.complaints⟩, rfl, hout, ⟨usable_live, hs.outs, hs.ins⟩, _, rfl⟩
  · rintro i s' hi ⟨w', hn', ho', hs', dv, hd⟩
    have hnn : s'.ctx.n.toNat = n := by rw [hn', hn]
    have hio : i < s'.ctx.outs.length := by rw [w'.outs, hnn]; exact hi
    have hm : (i + 1) * 175 ≤ n * 175 := Nat.mul_le_mul_right _ hi
    have hm' : (i + 1) * 159 ≤ n * 159 := Nat.mul_le_mul_right _ hi
    refine wp_step5Body (dv := dv) (by omega) (by omega) (by rw [w'.lastTs, hnn]; exact hi)
      (by rw [w'.sigPks, hnn]; exact hi) (by rw [w'.noisePks, hnn]; exact hi) hio hd ?_ ?_
    · intro r last k hr _
      exact ⟨by have := recvMsg_range hr; omega, hs'.dev, hs'.outs, hs'.ins⟩
    · intro last k _
      have hlen : ∀ m, (initNoise dv s'.ctx.outs[i] (npk2 input i) (rnd.einit i)).2.2.2 = some m →
          i * 159 + 111 + m.length ≤ s'.out.length := fun m hm => by have := initNoise_length hm; omega
      refine ⟨⟨w'.t_pos, w'.t_lt, w'.n_le, ?_, ?_, ?_, ?_, w'.ins, w'.shares, w'.xshares, w'.mine, w'.commitments,
        w'.complaints⟩, hn', ?_, ⟨usable_live, ?_, hs'.ins⟩, _, rfl⟩
      · simpa [after5, received] using w'.lastTs
      · simpa [after5, received] using w'.sigPks
      · simpa [after5, received] using w'.noisePks
      · simpa [after5, received] using w'.outs
      · have e1 := spliceOpt_length (buf := s'.out) hlen
        show (splice (spliceOpt s'.out _ _) _ _).length = _
        rw [splice_length (by rw [header_length, e1]; omega), e1, ho']
      · exact mem_set_of hs'.outs (initNoise_slot (hs'.outs _ (List.getElem_mem hio)))
  · rintro s' ⟨_, _, _, hs', hd⟩
    exact ⟨hs', hd⟩

theorem safe7 (w : PWF s.ctx) (hs : Init s.ctx) (hd : ∃ dv, s.ctx.dev = .live dv)
    (hin : input.length = 159 * s.ctx.n.toNat) (hout : s.out.length = 159 * s.ctx.n.toNat) :
    Wp (step7 clock log rnd input) False (fun e s' => e ≠ 0 ∧ Init s'.ctx)
      (fun _ s' => Init s'.ctx ∧ ∃ dv, s'.ctx.dev = .live dv) s := by
  obtain ⟨n, hn⟩ : ∃ n, s.ctx.n.toNat = n := ⟨_, rfl⟩
  rw [hn] at hin hout
  refine wp_step7 hn hin hout (fun _ s' => PWF s'.ctx ∧ s'.ctx.n = s.ctx.n ∧ s'.out.length = 159 * n ∧ Init s'.ctx ∧
    ∃ dv, s'.ctx.dev = .live dv) ⟨w, rfl, hout, hs, hd⟩ ?_ ?_
  · rintro i s' hi ⟨w', hn', ho', hs', dv, hd⟩
    have hnn : s'.ctx.n.toNat = n := by rw [hn', hn]
    have hio : i < s'.ctx.ins.length := by rw [w'.ins, hnn]; exact hi
    have hm' : (i + 1) * 159 ≤ n * 159 := Nat.mul_le_mul_right _ hi
    refine wp_step7Body (dv := dv) (by omega) (by omega) (by rw [w'.lastTs, hnn]; exact hi)
      (by rw [w'.sigPks, hnn]; exact hi) hio hd ?_ ?_
    · intro r last k hr _
      exact ⟨by have := recvMsg_range hr; omega, hs'.dev, hs'.outs, hs'.ins⟩
    · intro last k _
      have hlen : ∀ m, (respondNoise dv (hsMsg input i) (rnd.eresp i)).2.2.2 = some m →
          i * 159 + 111 + m.length ≤ s'.out.length := fun m hm => by have := respondNoise_length hm; omega
      refine ⟨⟨w'.t_pos, w'.t_lt, w'.n_le, ?_, w'.sigPks, w'.noisePks, w'.outs, ?_, w'.shares, w'.xshares, w'.mine,
        w'.commitments, w'.complaints⟩, hn', ?_, ⟨usable_live, hs'.outs, ?_⟩, _, rfl⟩
      · simpa [after7, received] using w'.lastTs
      · simpa [after7, received] using w'.ins
      · have e1 := spliceOpt_length (buf := s'.out) hlen
        show (splice (spliceOpt s'.out _ _) _ _).length = _
        rw [splice_length (by rw [header_length, e1]; omega), e1, ho']
      · exact mem_set_of hs'.ins respondNoise_slot
  · rintro s' ⟨_, _, _, hs', hd⟩
    exact ⟨hs', hd⟩

variable [Mac]

theorem safe911 (G : Type) [Ristretto G] (w : PWF s.ctx) (hs : Init s.ctx) (hd : ∃ dv, s.ctx.dev = .live dv)
    (hu : ∀ p ∈ s.ctx.outs, p ≠ .freed) (hr : (rnd.coeff 0).Canonical)
    (hin : input.length = 159 * s.ctx.n.toNat) (hout : s.out.length = 111 + 32 * s.ctx.t.toNat) :
    Wp (step911 G clock log mlock rnd input) False (fun e s' => e ≠ 0 ∧ Init s'.ctx)
      (fun _ s' => Init s'.ctx ∧ ∃ dv, s'.ctx.dev = .live dv) s := by
  obtain ⟨n, hn⟩ : ∃ n, s.ctx.n.toNat = n := ⟨_, rfl⟩
  rw [hn] at hin
  refine wp_step911 G hn hin hout (fun i s' => PWF s'.ctx ∧ s'.ctx.n = s.ctx.n ∧ s'.ctx.t = s.ctx.t ∧ s'.out = s.out ∧
    Init s'.ctx ∧ (∃ dv, s'.ctx.dev = .live dv) ∧ ∀ k (hk : k < s'.ctx.outs.length), i ≤ k → s'.ctx.outs[k] ≠ .freed)
    ⟨w, rfl, rfl, rfl, hs, hd, fun k hk _ => hu _ (List.getElem_mem hk)⟩ ?_ ?_ ?_
  · rintro i s' hi ⟨w', hn', ht', ho', hs', ⟨dv, hd⟩, hu'⟩
    have hnn : s'.ctx.n.toNat = n := by rw [hn', hn]
    have hio : i < s'.ctx.outs.length := by rw [w'.outs, hnn]; exact hi
    have hm' : (i + 1) * 159 ≤ n * 159 := Nat.mul_le_mul_right _ hi
    obtain ⟨r', slot', hf, hsl⟩ := finishNoise_ok (log := log) (dv := dv) (slot := s'.ctx.outs[i]) (m := hsMsg input i)
      ⟨hs'.outs _ (List.getElem_mem hio), hu' i hio (Nat.le_refl _)⟩
    refine wp_step911Body (dv := dv) (by omega) (by rw [w'.lastTs, hnn]; exact hi)
      (by rw [w'.sigPks, hnn]; exact hi) hio hd hf ?_ ?_
    · intro r last k hr _
      exact ⟨by have := recvMsg_range hr; omega, hs'.dev, hs'.outs, hs'.ins⟩
    · intro last k _
      refine ⟨⟨w'.t_pos, w'.t_lt, w'.n_le, ?_, w'.sigPks, w'.noisePks, ?_, w'.ins, w'.shares, w'.xshares, w'.mine,
        w'.commitments, w'.complaints⟩, hn', ht', ho', ⟨hs'.dev, ?_, hs'.ins⟩, ⟨dv, hd⟩, ?_⟩
      · simpa [after911, received] using w'.lastTs
      · simpa [after911, received] using w'.outs
      · exact mem_set_of hs'.outs hsl
      · intro k hk hik
        have hne : i ≠ k := by omega
        have hk' : k < (s'.ctx.outs.set i slot').length := hk
        show (s'.ctx.outs.set i slot')[k]'hk' ≠ _
        rw [List.getElem_set_ne hne]
        exact hu' k (by simpa [after911, received] using hk) (by omega)
  · rintro s' ⟨_, hn', ht', ho', _⟩
    exact ⟨ho', hn', ht'⟩
  · rintro s' ⟨w', hn', ht', ho', hs', hd, _⟩
    have ht1 : 1 ≤ s.ctx.t.toNat := by have := w.t_pos; omega
    have hn254 : s.ctx.n.toNat ≤ 254 := by have := w.n_le; omega
    cases mlock with
    | true =>
      refine ⟨_, _, _, Dkg.start_eq G _ _ _ _ _ ht1 hn254 (by rw [List.length_replicate])
        (by rw [w'.shares, hn']) hr, fun h => absurd rfl h, fun _ => ⟨⟨hs'.dev, hs'.outs, hs'.ins⟩, hd⟩⟩
    | false =>
      exact ⟨-1, _, _, by unfold Dkg.start; rw [if_neg (by omega), if_pos (by simp)], fun _ => ⟨by decide, hs'⟩,
        fun h => absurd h (by decide)⟩

theorem safe13 (w : PWF s.ctx) (hs : Init s.ctx) (hd : ∃ dv, s.ctx.dev = .live dv)
    (hu : ∀ p ∈ s.ctx.outs, p ≠ .freed)
    (hin : input.length = 111 + msg6Size s.ctx.t * s.ctx.n.toNat) (hout : s.out.length = s.ctx.n.toNat * 256) :
    Wp (step13 clock log input) False (fun e s' => e ≠ 0 ∧ Init s'.ctx ∧ ∀ p ∈ s'.ctx.outs, p ≠ .freed)
      (fun _ s' => Init s'.ctx ∧ (∃ dv, s'.ctx.dev = .live dv) ∧ ∀ p ∈ s'.ctx.outs, p.Finished) s := by
  obtain ⟨n, hn⟩ : ∃ n, s.ctx.n.toNat = n := ⟨_, rfl⟩
  rw [hn] at hin hout
  obtain ⟨sz, hsz⟩ : ∃ sz, msg6Size s.ctx.t = sz := ⟨_, rfl⟩
  refine wp_step13 hn hin hout (fun i s' => PWF s'.ctx ∧ s'.ctx.n = s.ctx.n ∧ s'.ctx.t = s.ctx.t ∧
    s'.out.length = n * 256 ∧ Init s'.ctx ∧ (∃ dv, s'.ctx.dev = .live dv) ∧ (∀ p ∈ s'.ctx.outs, p ≠ .freed) ∧
    ∀ k (hk : k < s'.ctx.outs.length), k < i → s'.ctx.outs[k].Finished) ?_ ?_ ?_ ?_
  · intro r last k hr _
    exact ⟨by have := recvMsg_range hr; omega, ⟨hs.dev, hs.outs, hs.ins⟩, hu⟩
  · intro last k _
    exact ⟨⟨w.t_pos, w.t_lt, w.n_le, w.lastTs, w.sigPks, w.noisePks, w.outs, w.ins, w.shares, w.xshares, w.mine,
      w.commitments, w.complaints⟩, rfl, rfl, hout, ⟨hs.dev, hs.outs, hs.ins⟩, hd, hu, fun k _ h => absurd h (by omega)⟩
  · rintro i s' hi ⟨w', hn', ht', ho', hs', ⟨dv, hd⟩, hu', hf'⟩
    have hnn : s'.ctx.n.toNat = n := by rw [hn', hn]
    have hio : i < s'.ctx.outs.length := by rw [w'.outs, hnn]; exact hi
    have hm : (i + 1) * sz ≤ n * sz := Nat.mul_le_mul_right _ hi
    have hm' : (i + 1) * 256 ≤ n * 256 := Nat.mul_le_mul_right _ hi
    have hct : (i + 1) * s.ctx.t.toNat ≤ n * s.ctx.t.toNat := Nat.mul_le_mul_right _ hi
    have hmc : sz * n = n * sz := Nat.mul_comm _ _
    obtain ⟨r1, slot1, o1, h1, u1, -, hm1, f1⟩ := encryptNoise_ok (slot := s'.ctx.outs[i]) (p := []) (l := 64)
      ⟨hs'.outs _ (List.getElem_mem hio), hu' _ (List.getElem_mem hio)⟩
    have hcl : s'.ctx.commitments.length = n * s.ctx.t.toNat := by rw [w'.commitments, hnn, ht']
    refine wp_step13Body (by rw [hsz] at hin ⊢; omega) (by omega) (by rw [w'.lastTs, hnn]; exact hi)
      (by rw [w'.sigPks, hnn]; exact hi) (by rw [w'.shares, hnn]; exact hi) (by omega) hio h1 ?_ ?_
    · intro r last k hr _
      exact ⟨by have := recvMsg_range hr; omega, ⟨hs'.dev, hs'.outs, hs'.ins⟩, hu'⟩
    · intro last k _
      refine ⟨fun _ => ?_, fun hr1 => ?_⟩
      · exact ⟨by decide, ⟨hs'.dev, mem_set_of hs'.outs u1.1, hs'.ins⟩, mem_set_of hu' u1.2⟩
      · obtain ⟨m1, rfl⟩ := hm1 hr1
        have l1 := encryptNoise_length h1
        obtain ⟨r2, slot2, o2, h2, u2, f2, hm2, -⟩ := encryptNoise_ok (slot := slot1)
          (p := shareBytes (s'.ctx.shares[i]'(by rw [w'.shares, hnn]; exact hi))) (l := 49) u1
        refine ⟨m1, r2, slot2, o2, rfl, h2, fun _ => ?_, fun hr2 => ?_⟩
        · exact ⟨by decide, ⟨hs'.dev, mem_set_of hs'.outs u2.1, hs'.ins⟩, mem_set_of hu' u2.2⟩
        · obtain ⟨m2, rfl⟩ := hm2 hr2
          have l2 := encryptNoise_length h2
          have hfin := f2 (f1 hr1 rfl rfl)
          obtain ⟨key, hk⟩ := keyAt_ok hfin
          refine ⟨m2, key, rfl, hk, ⟨w'.t_pos, w'.t_lt, w'.n_le, ?_, w'.sigPks, w'.noisePks, ?_, w'.ins, w'.shares,
            w'.xshares, w'.mine, ?_, w'.complaints⟩, hn', ht', ?_, ⟨hs'.dev, mem_set_of hs'.outs u2.1, hs'.ins⟩, ⟨dv, hd⟩,
            mem_set_of hu' u2.2, ?_⟩
          · simpa [after13, received] using w'.lastTs
          · simpa [after13, received] using w'.outs
          · show (splice _ _ _).length = s'.ctx.n.toNat * s'.ctx.t.toNat
            have e : (i + 1) * s.ctx.t.toNat = i * s.ctx.t.toNat + s.ctx.t.toNat := by ring
            rw [splice_length (by rw [commits6, toB32s_length]; omega)]
            exact w'.commitments
          · have e3 : (put8 s'.out i m1 m2 key).length = s'.out.length := put8_length (by omega) l1 l2
            show (splice (put8 s'.out i m1 m2 key) _ _).length = _
            rw [splice_length (by rw [header_length]; omega), e3, ho']
          · intro k hk hki
            have hk' : k < (s'.ctx.outs.set i slot2).length := hk
            show ((s'.ctx.outs.set i slot2)[k]'hk').Finished
            rw [List.getElem_set]
            split
            · exact hfin
            · exact hf' k (by simpa [after13, received] using hk) (by omega)
  · rintro s' ⟨w', hn', _, _, hs', hd, _, hf'⟩
    refine ⟨hs', hd, fun p hp => ?_⟩
    obtain ⟨k, hk, rfl⟩ := List.getElem_of_mem hp
    exact hf' k hk (by rw [w'.outs, hn', hn] at hk; exact hk)

theorem rows_length (n t : ℕ) (cs : List B32) : (rows n t cs).length = n := by simp [rows]

theorem rows_row {n t : ℕ} {cs : List B32} (h : cs.length = n * t) : ∀ r ∈ rows n t cs, r.length = t := by
  intro r hr
  unfold rows at hr
  rw [List.mem_map] at hr
  obtain ⟨i, hi, rfl⟩ := hr
  rw [List.mem_range] at hi
  have := Nat.mul_le_mul_right t hi
  have e : (i + 1) * t = i * t + t := by ring
  rw [List.length_take, List.length_drop]
  rw [Nat.succ_eq_add_one] at this
  omega

theorem safe15 (G : Type) [Ristretto G] (w : PWF s.ctx) (hs : Init s.ctx) (hd : ∃ dv, s.ctx.dev = .live dv)
    (hu : ∀ p ∈ s.ctx.ins, p ≠ .freed)
    (hv : ∀ (css : List (List B32)) (xs : List Share), css.length = s.ctx.n.toNat → (∀ r ∈ css, r.length = s.ctx.t.toNat) →
      xs.length = s.ctx.n.toNat → (Dkg.verifyCommitments G scratch s.ctx.n s.ctx.t s.ctx.index css xs
        (List.replicate s.ctx.n.toNat 0)).Safe)
    (hin : input.length = s.ctx.n.toNat * 256) (hout : s.out.length = 111 + (s.ctx.n.toNat + 1)) :
    Wp (step15 G clock log scratch input) False (fun e s' => e ≠ 0 ∧ Init s'.ctx ∧ ∀ p ∈ s'.ctx.ins, p ≠ .freed)
      (fun _ s' => Init s'.ctx ∧ (∃ dv, s'.ctx.dev = .live dv) ∧ ∀ p ∈ s'.ctx.ins, p ≠ .freed) s := by
  obtain ⟨n, hn⟩ : ∃ n, s.ctx.n.toNat = n := ⟨_, rfl⟩
  rw [hn] at hin hout
  refine wp_step15 G hn hin hout (fun i s' => PWF s'.ctx ∧ s'.ctx.n = s.ctx.n ∧ s'.ctx.t = s.ctx.t ∧
    s'.ctx.index = s.ctx.index ∧ s'.out = s.out ∧ Init s'.ctx ∧ (∃ dv, s'.ctx.dev = .live dv) ∧ ∀ p ∈ s'.ctx.ins, p ≠ .freed)
    ⟨w, rfl, rfl, rfl, rfl, hs, hd, hu⟩ ?_ ?_ ?_
  · rintro i s' hi ⟨w', hn', ht', hx', ho', hs', ⟨dv, hd⟩, hu'⟩
    have hnn : s'.ctx.n.toNat = n := by rw [hn', hn]
    have hio : i < s'.ctx.ins.length := by rw [w'.ins, hnn]; exact hi
    have hm' : (i + 1) * 256 ≤ n * 256 := Nat.mul_le_mul_right _ hi
    obtain ⟨r1, slot1, o1, h1, u1, -, f1⟩ := decryptNoise_ok (dv := dv) (slot := s'.ctx.ins[i]) (p := h3Msg input i)
      (l := 0) ⟨hs'.ins _ (List.getElem_mem hio), hu' _ (List.getElem_mem hio)⟩
    refine wp_step15Body (dv := dv) (by omega) (by rw [w'.lastTs, hnn]; exact hi)
      (by rw [w'.sigPks, hnn]; exact hi) (by rw [w'.xshares, hnn]; exact hi) hio hd h1 ?_ ?_
    · intro r last k hr _
      exact ⟨by have := recvMsg_range hr; omega, ⟨hs'.dev, hs'.outs, hs'.ins⟩, hu'⟩
    · intro last k _
      refine ⟨fun _ => ?_, fun hr1 => ?_⟩
      · exact ⟨by decide, ⟨hs'.dev, hs'.outs, mem_set_of hs'.ins u1.1⟩, mem_set_of hu' u1.2⟩
      · obtain ⟨key, hk⟩ := keyAt_ok (f1 hr1 (by unfold h3Msg; rw [slice_length (by omega)]))
        refine ⟨key, hk, fun _ => ?_, fun _ => ?_⟩
        · exact ⟨by decide, ⟨hs'.dev, hs'.outs, mem_set_of hs'.ins u1.1⟩, mem_set_of hu' u1.2⟩
        · obtain ⟨r2, slot2, o2, h2, u2, -⟩ := decryptNoise_ok (dv := dv) (slot := slot1) (p := boxMsg input i)
            (l := 33) u1
          refine ⟨r2, slot2, o2, h2, fun _ => ?_, fun _ => ?_⟩
          · exact ⟨by decide, ⟨hs'.dev, hs'.outs, mem_set_of hs'.ins u2.1⟩, mem_set_of hu' u2.2⟩
          · refine ⟨⟨w'.t_pos, w'.t_lt, w'.n_le, ?_, w'.sigPks, w'.noisePks, w'.outs, ?_, w'.shares,
              ?_, w'.mine, w'.commitments, w'.complaints⟩, hn', ht', hx', ho',
              ⟨hs'.dev, hs'.outs, mem_set_of hs'.ins u2.1⟩, ⟨dv, hd⟩, mem_set_of hu' u2.2⟩
            · simpa [after15, received] using w'.lastTs
            · simpa [after15, received] using w'.ins
            · simpa [after15, received] using w'.xshares
  · rintro s' ⟨w', hn', ht', _, ho', _⟩
    exact ⟨ho', hn', ht', by rw [w'.commitments, hn', ht', hn]⟩
  · rintro s' ⟨w', hn', ht', hx', ho', hs', hd, hu'⟩
    have hcl : s'.ctx.commitments.length = n * s.ctx.t.toNat := by rw [w'.commitments, hn', ht', hn]
    obtain ⟨⟨r, fails, len⟩, h⟩ := hv (rows n s.ctx.t.toNat (s'.ctx.commitments.take (n * s.ctx.t.toNat))) s'.ctx.xshares
      (by rw [rows_length, hn]) (rows_row (by rw [List.length_take, hcl, Nat.min_self])) (by rw [w'.xshares, hn'])
    refine ⟨r, fails, len, by rw [hx', ← hn]; rw [hn]; rw [hn] at h; exact h, ⟨hs'.dev, hs'.outs, hs'.ins⟩, hd, hu'⟩

theorem safe17a (hs : s.ctx.step = 7) (hf : ∀ p ∈ s.ctx.outs, p.Finished) (hl : s.ctx.myLen.toNat ≤ s.ctx.mine.length)
    (hr : ∀ y ∈ s.ctx.against, 1 ≤ y.toNat ∧ y.toNat ≤ s.ctx.outs.length)
    (hc : s.ctx.complaintsLen = 0 → s.ctx.myLen = 0)
    (hin : input.length = 0) (hout : s.out.length = peerOutputSize s.ctx) :
    Wp (step17a clock log input) False (fun _ _ => True) (fun _ _ => True) s := by
  unfold step17a
  rw [wp_bind, wp_get]
  rw [wp_ite]
  refine ⟨fun h => absurd hin h, fun _ => ?_⟩
  rw [wp_ite]
  refine ⟨fun h => absurd hout h, fun _ => ?_⟩
  rw [wp_ite]
  refine ⟨fun _ => trivial, fun ho => ?_⟩
  obtain ⟨m, hm⟩ : ∃ m, s.ctx.myLen.toNat = m := ⟨_, rfl⟩
  have hsz : 111 + m * 33 ≤ s.out.length := by
    rw [hout] at ho ⊢
    simp only [peerOutputSize, hs, hdrSize, msg19Size] at ho ⊢
    split at ho
    · rename_i h1
      rw [if_pos h1]
      split at ho
      · rename_i h2
        rw [if_pos h2, hm]
      · exact absurd rfl ho
    · rename_i h1
      rw [if_neg h1]
      have : s.ctx.complaintsLen = 0 := by
        rw [gt_iff_lt, UInt16.not_lt] at h1
        exact UInt16.le_zero_iff.1 h1
      have := hc this
      rw [this] at hm
      simp at hm
      omega
  rw [wp_bind]
  refine wp_forN (fun _ s' => s'.ctx = s.ctx ∧ s'.out.length = s.out.length) ⟨rfl, rfl⟩ ?_ ?_
  · rintro i s' hi ⟨hx, ho'⟩
    rw [hm] at hi
    have him : i < s'.ctx.mine.length := by rw [hx]; omega
    have hmem : s'.ctx.mine[i] ∈ s.ctx.against := by
      unfold PeerState.against
      have : i < (s.ctx.mine.take s.ctx.myLen.toNat).length := by rw [List.length_take]; omega
      have h2 := List.getElem_mem this
      rw [List.getElem_take] at h2
      simpa only [hx] using h2
    have hrange := hr _ hmem
    have hmi : (i + 1) * 33 ≤ m * 33 := Nat.mul_le_mul_right _ hi
    unfold step17aBody
    rw [wp_bind, wp_get, wp_bind, wp_lift_ok (ld_ok him)]
    generalize s'.ctx.mine[i] = y at hrange
    dsimp only [hdrSize]
    rw [wp_bind, wp_setOut (by simp only [List.length_singleton]; omega), wp_ite]
    refine ⟨fun h => ?_, fun _ => ?_⟩
    · rw [h] at hrange
      simp at hrange
    · have hio : y.toNat - 1 < s'.ctx.outs.length := by rw [hx]; omega
      obtain ⟨key, hk⟩ := keyAt_ok (slot := s'.ctx.outs[y.toNat - 1]) (hf _ (by simpa only [hx] using List.getElem_mem hio))
      have e1 : (splice s'.out (111 + i * 33) [y]).length = s'.out.length :=
        splice_length (by simp only [List.length_singleton]; omega)
      have hkl : key.toList.length = 32 := by simp
      rw [wp_bind, wp_lift_ok (ld_ok hio), wp_bind, wp_lift_ok hk, wp_setOut (by
        show _ ≤ (splice s'.out _ _).length
        rw [e1]; omega)]
      refine ⟨hx, ?_⟩
      show (splice (splice s'.out _ _) _ _).length = _
      rw [splice_length (by rw [e1]; omega), e1, ho']
  · rintro s' ⟨hx, ho'⟩
    have e : (splice s'.out 0 (header s'.ctx (clock s'.ctx.ticks) (peerOutputSize s.ctx) 11 0)).length = s.out.length := by
      rw [splice_length (by rw [header_length]; omega), ho']
    rw [wp_bind, wp_send (by omega), wp_bind, wp_dumpOut (by
      show _ ≤ (splice s'.out _ _).length
      rw [e]; omega), wp_bind, wp_setCtx]
    trivial

theorem safe21 (hf : ∀ xi, (Dkg.finish s.ctx.n s.ctx.xshares xi).Safe) (hin : input.length = 113)
    (hout : s.out.length = msg21Size) : Wp (step21 clock log input) False (fun _ _ => True) (fun _ _ => True) s := by
  unfold step21
  rw [wp_bind, wp_get, wp_ite]
  refine ⟨fun h => absurd hin h, fun _ => ?_⟩
  rw [wp_ite]
  refine ⟨fun h => absurd hout h, fun _ => ?_⟩
  simp only [msg21Size] at hout
  rw [wp_bind, wp_dump (by omega), wp_bind]
  refine wp_recvTp (by omega) fun r last k hr => ?_
  rw [wp_ite]
  refine ⟨fun h0 => trivial, fun h0 => ?_⟩
  rw [wp_bind, wp_lift_ok (rd_slice' (by simp only [hdrSize]; omega)), wp_ite]
  refine ⟨fun hd => ?_, fun _ => trivial⟩
  obtain ⟨x, hx⟩ := hf { s.ctx.share with index := s.ctx.index }
  rw [wp_bind, wp_get, wp_bind, wp_lift_ok (by exact hx)]
  have hl2 : (slice input hdrSize 2).length = 2 := by rw [hd]; rfl
  have e : (splice s.out hdrSize (slice input hdrSize 2)).length = s.out.length :=
    splice_length (by rw [hl2]; simp only [hdrSize]; omega)
  rw [wp_bind, wp_setCtx, wp_bind, wp_setOut (by rw [hl2]; show _ ≤ s.out.length; simp only [hdrSize]; omega), wp_bind,
    wp_send (by
      show _ ≤ (splice s.out _ _).length
      omega), wp_bind]
  rw [wp_dumpOut (by
    show _ ≤ (splice _ _ _).length
    rw [splice_length (by rw [header_length]; show _ ≤ (splice s.out _ _).length; omega)]
    show _ ≤ (splice s.out _ _).length
    rw [e, msg21Size]; omega)]
  trivial

end Peer

variable [Signing] [Hashes] [NoiseCrypto] [Mac] (G : Type) [Ristretto G]
variable {clock : ℕ → UInt64} {log mlock : Bool} {scratch : B32} {rnd : Rnd} {c c' : PeerState} {input out o : Bytes}
  {r : Int}

theorem peerNext_dev (h : peerNext G clock log mlock scratch rnd c input out = .ok (r, c', o)) (h1 : c.step ≠ 1)
    (h2 : c.step ≠ 2) : c'.dev = c.dev :=
  (peerNext_frame G (f := fun c => c.dev)
    ⟨fun _ _ _ => rfl, fun _ _ _ _ => rfl⟩ (fun _ _ _ => rfl) (fun _ => ⟨fun _ _ _ _ _ _ => rfl, fun _ _ => rfl⟩)
    (fun h => absurd h h1) (fun h => absurd h h2) (fun _ => ⟨fun _ _ _ => rfl, fun _ _ _ => rfl⟩)
    (fun _ => ⟨fun _ _ => rfl, fun _ _ _ => rfl, fun _ _ _ => rfl⟩) (fun _ => ⟨fun _ _ _ => rfl, fun _ _ _ => rfl⟩)
    (fun _ => ⟨fun _ _ => rfl, fun _ _ _ _ => rfl, fun _ _ _ _ => rfl⟩) (fun _ _ _ => rfl) h).1

theorem peerNext_outs (h : peerNext G clock log mlock scratch rnd c input out = .ok (r, c', o)) (h1 : c.step ≠ 1)
    (h3 : c.step ≠ 3) (h4 : c.step ≠ 4) : c'.outs = c.outs :=
  (peerNext_frame G (f := fun c => c.outs)
    ⟨fun _ _ _ => rfl, fun _ _ _ _ => rfl⟩ (fun _ _ _ => rfl) (fun _ => ⟨fun _ _ _ _ _ _ => rfl, fun _ _ => rfl⟩)
    (fun h => absurd h h1) (fun _ => ⟨fun _ _ => rfl, fun _ _ _ => rfl⟩) (fun h => absurd h h3)
    (fun h => absurd h h4) (fun _ => ⟨fun _ _ _ => rfl, fun _ _ _ => rfl⟩)
    (fun _ => ⟨fun _ _ => rfl, fun _ _ _ _ => rfl, fun _ _ _ _ => rfl⟩) (fun _ _ _ => rfl) h).1

theorem peerNext_ins (h : peerNext G clock log mlock scratch rnd c input out = .ok (r, c', o)) (h2 : c.step ≠ 2)
    (h5 : c.step ≠ 5) : c'.ins = c.ins :=
  (peerNext_frame G (f := fun c => c.ins)
    ⟨fun _ _ _ => rfl, fun _ _ _ _ => rfl⟩ (fun _ _ _ => rfl) (fun _ => ⟨fun _ _ _ _ _ _ => rfl, fun _ _ => rfl⟩)
    (fun _ => ⟨fun _ _ => rfl, fun _ _ => rfl, fun _ _ _ => rfl, fun _ _ _ _ _ => rfl⟩)
    (fun h => absurd h h2) (fun _ => ⟨fun _ _ _ => rfl, fun _ _ _ => rfl⟩)
    (fun _ => ⟨fun _ _ => rfl, fun _ _ _ => rfl, fun _ _ _ => rfl⟩) (fun h => absurd h h5)
    (fun _ => ⟨fun _ _ => rfl, fun _ _ _ _ => rfl, fun _ _ _ _ => rfl⟩) (fun _ _ _ => rfl) h).1

/-- What holds between the calls. -/
structure Ready (c : PeerState) : Prop where
  wf : PWF c
  init : Init c
  index : 1 ≤ c.step → c.step ≤ 10 → c.index ≠ 0
  dev : 2 ≤ c.step → c.step ≤ 10 → ∃ dv, c.dev = .live dv
  quiet : c.step ≤ 6 → c.complaintsLen = 0 ∧ c.myLen = 0
  outs : 5 ≤ c.step → c.step ≤ 10 → ∀ p ∈ c.outs, p.Finished
  mine : c.step = 7 → c.myLen.toNat ≤ c.mine.length ∧ (∀ y ∈ c.against, 1 ≤ y.toNat ∧ y.toNat ≤ c.n.toNat) ∧
    (c.complaintsLen = 0 → c.myLen = 0)

/-- A failed or ended run stays usable for the cleanup. -/
theorem ready_ended (w : PWF c) (i : Init c) (h : 10 < c.step) : Ready c :=
  ⟨w, i, fun _ _ => by omega, fun _ _ => by omega, fun _ => by omega, fun _ _ => by omega, fun _ => by omega⟩

theorem recorded_mine {n : ℕ} {A : List (ℕ × UInt8)} (h : Recorded n A c) (hn : n ≤ 128) :
    c.myLen.toNat ≤ c.mine.length ∧ (∀ y ∈ c.against, 1 ≤ y.toNat ∧ y.toNat ≤ n) ∧ (c.complaintsLen = 0 → c.myLen = 0) := by
  refine ⟨h.mine_cap, fun y hy => ?_, fun h0 => ?_⟩
  · obtain ⟨a, ha, -, rfl⟩ := (h.mine_mem y).1 hy
    have := h.src a ha
    rw [idx_toNat (by omega)]
    omega
  · by_contra hm
    have hpos : 0 < c.myLen.toNat := by
      rcases Nat.eq_zero_or_pos c.myLen.toNat with h | h
      · exact absurd (UInt8.toNat_inj.1 (h.trans rfl)) hm
      · exact h
    have hmem : c.mine[0]'(Nat.lt_of_lt_of_le hpos h.mine_cap) ∈ c.against := by
      unfold PeerState.against
      have : 0 < (c.mine.take c.myLen.toNat).length := by rw [List.length_take]; have := h.mine_cap; omega
      have h2 := List.getElem_mem this
      rw [List.getElem_take] at h2
      exact h2
    obtain ⟨a, ha, -⟩ := (h.mine_mem _).1 hmem
    have := (h.mem _).2 ⟨a, ha, rfl⟩
    unfold PeerState.known at this
    rw [h0] at this
    simp at this

theorem verify_safe {n t self : UInt8} (hself : self ≠ 0) (ht : 1 ≤ t.toNat) (hn : n.toNat ≤ 254) {css : List (List B32)}
    {xs : List Share} (h1 : css.length = n.toNat) (h2 : ∀ r ∈ css, r.length = t.toNat) (h3 : xs.length = n.toNat) :
    (Dkg.verifyCommitments G scratch n t self css xs (List.replicate n.toNat 0)).Safe ∧
      ∀ xi, (Dkg.finish n xs xi).Safe := by
  have k := fun xi => Props.C28_dkg_safe_partial G true scratch n t self hself ht hn (fun _ => B32.ofZ ((1 : ℕ) : ZMod L))
    (fun _ => Toy.randomScalar 1 (by decide) (by norm_num)) (List.replicate t.toNat zero32) List.length_replicate xs h3
    css h1 h2 (List.replicate n.toNat 0) List.length_replicate xi
  exact ⟨(k ⟨0, zero32⟩).2.1, fun xi => (k xi).2.2⟩

/-- A call in a state in which no session that it uses has been freed, and whose complaints fit in their messages. -/
theorem peerNext_ready (g : Ready c) (ho : c.step = 3 ∨ c.step = 4 → .freed ∉ c.outs) (hi : c.step = 5 → .freed ∉ c.ins)
    (hc : c.step = 6 → CountsOk c.n.toNat input) (hr : c.step = 3 → RandomScalar (rnd.coeff 0)) :
    ∃ r c' o, peerNext G clock log mlock scratch rnd c input out = .ok (r, c', o) ∧ Ready c' ∧
      (c.step ≠ 1 → c.step ≠ 2 → c.step ≠ 3 → ¬ c.Dangling → ¬ c'.Dangling) := by
  have w := g.wf
  have ht1 : 1 ≤ c.t.toNat := by have := w.t_pos; omega
  have hn254 : c.n.toNat ≤ 254 := by have := w.n_le; omega
  -- after a call the buffers keep their sizes, so a failed run is ready
  have fail : ∀ {r c' o}, peerNext G clock log mlock scratch rnd c input out = .ok (r, c', o) → Init c' → r ≠ 0 → Ready c' := by
    intro r c' o h hin hr
    exact ready_ended (peerNext_pwf G h w) hin (by rw [(peerNext_step G h).1 hr]; decide)
  -- steps that change no pointer
  have keep : ∀ {r c' o}, peerNext G clock log mlock scratch rnd c input out = .ok (r, c', o) → c.step ≠ 1 → c.step ≠ 2 →
      c.step ≠ 3 → c.step ≠ 4 → c.step ≠ 5 → Init c' ∧ (¬ c.Dangling → ¬ c'.Dangling) := by
    intro r c' o h h1 h2 h3 h4 h5
    have e1 := peerNext_dev G h h1 h2
    have e2 := peerNext_outs G h h1 h3 h4
    have e3 := peerNext_ins G h h2 h5
    refine ⟨⟨by rw [e1]; exact g.init.dev, by rw [e2]; exact g.init.outs, by rw [e3]; exact g.init.ins⟩, ?_⟩
    unfold PeerState.Dangling
    rw [e2, e3]
    exact id
  by_cases h10 : 10 < c.step
  · have h := peerNext_ended G (clock := clock) (log := log) (mlock := mlock) (scratch := scratch) (rnd := rnd)
      (input := input) (out := out) h10
    obtain ⟨a, b⟩ := keep h (by omega) (by omega) (by omega) (by omega) (by omega)
    exact ⟨_, _, _, h, fail h a (by decide), fun _ _ _ => b⟩
  by_cases hsz : c.step ≤ 9 ∧ (input.length ≠ peerInputSize c ∨ out.length ≠ peerOutputSize c)
  · obtain ⟨r, s, h, hs⟩ := peerNext_total G (Peer.wp_wrong G (clock := clock) (log := log) (mlock := mlock)
      (scratch := scratch) (rnd := rnd) (input := input) (s := ⟨c, out⟩) hsz.1 hsz.2)
    obtain ⟨hr, rfl⟩ : (r = 1 ∨ r = 2) ∧ s = ⟨c, out⟩ := hs.elim id False.elim
    refine ⟨_, _, _, h, fail h ⟨g.init.dev, g.init.outs, g.init.ins⟩ (by omega), fun _ _ _ hd => hd⟩
  have hlen : c.step ≤ 9 → input.length = peerInputSize c ∧ out.length = peerOutputSize c := by
    intro h9
    by_contra hne
    exact hsz ⟨h9, by tauto⟩
  -- the next state of a successful call
  have next : ∀ {c' o}, peerNext G clock log mlock scratch rnd c input out = .ok (0, c', o) → c.step ≠ 6 → c.step ≠ 7 →
      c'.step = c.step + 1 := by
    intro c' o h h6 h7
    rcases (peerNext_step G h).2.2 rfl with h | h | h
    · exact h
    · exact absurd h.1 h6
    · exact absurd h.1 h7
  have quiet : ∀ {c' o}, peerNext G clock log mlock scratch rnd c input out = .ok (0, c', o) → c.step ≤ 5 →
      c'.complaintsLen = 0 ∧ c'.myLen = 0 := by
    intro c' o h h5
    obtain ⟨-, e1, -, e2⟩ := peerNext_complaints G h (by omega)
    rw [e1, e2]
    exact g.quiet (by omega)
  have index : ∀ {c' o}, peerNext G clock log mlock scratch rnd c input out = .ok (0, c', o) → 1 ≤ c.step → c.step ≤ 10 →
      c'.index ≠ 0 := by
    intro c' o h h1 h2
    rw [(peerNext_keys G h (by omega)).1]
    exact g.index h1 h2
  -- a successful call before the complaints
  have early : ∀ {c' o}, peerNext G clock log mlock scratch rnd c input out = .ok (0, c', o) → Init c' → c.step ≤ 5 →
      c'.index ≠ 0 → (1 ≤ c.step → ∃ dv, c'.dev = .live dv) → (4 ≤ c.step → ∀ p ∈ c'.outs, p.Finished) → Ready c' := by
    intro c' o h hin h5 hx hd hf
    have hst := next h (by omega) (by omega)
    exact ⟨peerNext_pwf G h w, hin, fun _ _ => hx, fun _ _ => hd (by omega), fun _ => quiet h h5, fun _ _ => hf (by omega),
      fun _ => by omega⟩
  -- a successful call after the complaints
  have late : ∀ {r c' o}, peerNext G clock log mlock scratch rnd c input out = .ok (r, c', o) → 7 ≤ c.step →
      Ready c' ∧ (¬ c.Dangling → ¬ c'.Dangling) := by
    intro r c' o h h7
    obtain ⟨hin, hd⟩ := keep h (by omega) (by omega) (by omega) (by omega) (by omega)
    refine ⟨?_, hd⟩
    by_cases hr0 : r = 0
    case neg => exact fail h hin hr0
    subst hr0
    have hst : 7 < c'.step := by
      rcases (peerNext_step G h).2.2 rfl with h | h | h <;> omega
    have hst' : c'.step = c.step + 1 ∨ 10 < c'.step := by
      rcases (peerNext_step G h).2.2 rfl with h | h | h <;> omega
    refine ⟨peerNext_pwf G h w, hin, fun _ _ => index h (by omega) (by omega), fun _ _ => ?_, fun _ => by omega,
      fun _ _ => ?_, fun _ => by omega⟩
    · rw [peerNext_dev G h (by omega) (by omega)]
      exact g.dev (by omega) (by omega)
    · rw [peerNext_outs G h (by omega) (by omega) (by omega)]
      exact g.outs (by omega) (by omega)
  obtain ⟨k, hk⟩ : ∃ k, c.step = k := ⟨_, rfl⟩
  have hk10 : k ≤ 10 := by omega
  interval_cases k
  · -- 0
    obtain ⟨hi0, ho0⟩ := hlen (by omega)
    have hw : Wp (Peer.step23 clock log rnd input) False (fun e _ => e ≠ 0) (fun r s' => r = 0 ∧ s'.ctx.index ≠ 0)
        ⟨c, out⟩ := by
      refine Peer.wp_step23 (by simpa [peerInputSize, hk, msg1Size] using hi0) (by simpa [peerOutputSize, hk, msg2Size] using ho0) ?_ ?_ ?_
      · intro r last k h _
        have := recvMsg_range h
        omega
      · intro last k _ _
        decide
      · intro last k _ h1 _
        refine ⟨rfl, fun h => ?_⟩
        have h : input.getD 70 0 = 0 := h
        rw [h] at h1
        simp at h1
    have hh : Peer.handler G clock log mlock scratch rnd input c.step = Peer.step23 clock log rnd input := by rw [hk]; rfl
    rw [← hh] at hw
    obtain ⟨r, s, h, hs⟩ := peerNext_total G hw
    obtain ⟨hin, hd⟩ := keep h (by omega) (by omega) (by omega) (by omega) (by omega)
    refine ⟨_, _, _, h, ?_, fun _ _ _ => hd⟩
    rcases hs with hs | ⟨rfl, hs⟩
    · exact fail h hin hs
    · exact early h hin (by omega) hs (fun _ => by omega) (fun _ => by omega)
  · -- 1
    obtain ⟨hi0, ho0⟩ := hlen (by omega)
    have hw := Peer.safe5 (clock := clock) (log := log) (rnd := rnd) (input := input) (s := ⟨c, out⟩) w g.init
      (by simpa [peerInputSize, hk, msg2Size, hdrSize] using hi0) (by simpa [peerOutputSize, hk, msg4Size] using ho0)
    have hh : Peer.handler G clock log mlock scratch rnd input c.step = Peer.step5 clock log rnd input := by rw [hk]; rfl
    rw [← hh] at hw
    obtain ⟨r, s, h, hs⟩ := peerNext_total G hw
    have hin : Init s.ctx := hs.elim (·.2) (·.1)
    have hin' : Init (pafter r s.ctx) := ⟨hin.dev, hin.outs, hin.ins⟩
    refine ⟨_, _, _, h, ?_, fun h1 => absurd hk h1⟩
    rcases hs with hs | hs
    · exact fail h hin' hs.1
    by_cases hr0 : r = 0
    case neg => exact fail h hin' hr0
    subst hr0
    exact early h hin' (by omega) (index h (by omega) (by omega)) (fun _ => hs.2) (fun _ => by omega)
  · -- 2
    obtain ⟨hi0, ho0⟩ := hlen (by omega)
    have hw := Peer.safe7 (clock := clock) (log := log) (rnd := rnd) (input := input) (s := ⟨c, out⟩) w g.init
      (g.dev (by omega) (by omega))
      (by simpa [peerInputSize, hk, msg4Size] using hi0) (by simpa [peerOutputSize, hk, msg5Size] using ho0)
    have hh : Peer.handler G clock log mlock scratch rnd input c.step = Peer.step7 clock log rnd input := by rw [hk]; rfl
    rw [← hh] at hw
    obtain ⟨r, s, h, hs⟩ := peerNext_total G hw
    have hin : Init s.ctx := hs.elim (·.2) (·.1)
    have hin' : Init (pafter r s.ctx) := ⟨hin.dev, hin.outs, hin.ins⟩
    refine ⟨_, _, _, h, ?_, fun _ h2 => absurd hk h2⟩
    rcases hs with hs | hs
    · exact fail h hin' hs.1
    by_cases hr0 : r = 0
    case neg => exact fail h hin' hr0
    subst hr0
    exact early h hin' (by omega) (index h (by omega) (by omega)) (fun _ => hs.2) (fun _ => by omega)
  · -- 3
    obtain ⟨hi0, ho0⟩ := hlen (by omega)
    have hw := Peer.safe911 (clock := clock) (log := log) (mlock := mlock) (rnd := rnd) (input := input) (s := ⟨c, out⟩) G w
      g.init (g.dev (by omega) (by omega)) (fun p hp h => ho (by omega) (h ▸ hp)) (hr hk).1
      (by simpa [peerInputSize, hk, msg5Size] using hi0) (by simpa [peerOutputSize, hk, msg6Size] using ho0)
    have hh : Peer.handler G clock log mlock scratch rnd input c.step = Peer.step911 G clock log mlock rnd input := by
      rw [hk]; rfl
    rw [← hh] at hw
    obtain ⟨r, s, h, hs⟩ := peerNext_total G hw
    have hin : Init s.ctx := hs.elim (·.2) (·.1)
    have hin' : Init (pafter r s.ctx) := ⟨hin.dev, hin.outs, hin.ins⟩
    refine ⟨_, _, _, h, ?_, fun _ _ h3 => absurd hk h3⟩
    rcases hs with hs | hs
    · exact fail h hin' hs.1
    by_cases hr0 : r = 0
    case neg => exact fail h hin' hr0
    subst hr0
    exact early h hin' (by omega) (index h (by omega) (by omega)) (fun _ => hs.2) (fun _ => by omega)
  · -- 4
    obtain ⟨hi0, ho0⟩ := hlen (by omega)
    have hw := Peer.safe13 (clock := clock) (log := log) (input := input) (s := ⟨c, out⟩) w
      g.init (g.dev (by omega) (by omega)) (fun p hp h => ho (by omega) (h ▸ hp))
      (by simpa [peerInputSize, hk, hdrSize] using hi0) (by simpa [peerOutputSize, hk, msg8Size] using ho0)
    have hh : Peer.handler G clock log mlock scratch rnd input c.step = Peer.step13 clock log input := by
      rw [hk]; rfl
    rw [← hh] at hw
    obtain ⟨r, s, h, hs⟩ := peerNext_total G hw
    have hin : Init s.ctx := hs.elim (·.2.1) (·.1)
    have hin' : Init (pafter r s.ctx) := ⟨hin.dev, hin.outs, hin.ins⟩
    refine ⟨_, _, _, h, ?_, fun _ _ _ hd => ?_⟩
    · rcases hs with hs | hs
      · exact fail h hin' hs.1
      by_cases hr0 : r = 0
      case neg => exact fail h hin' hr0
      subst hr0
      exact early h hin' (by omega) (index h (by omega) (by omega)) (fun _ => hs.2.1) (fun _ => hs.2.2)
    · rintro (hf | hf)
      · rcases hs with hs | hs
        · exact hs.2.2 _ hf rfl
        · exact (hs.2.2 _ hf).usable.2 rfl
      · rw [peerNext_ins G h (by omega) (by omega)] at hf
        exact hd (.inr hf)
  · -- 5
    obtain ⟨hi0, ho0⟩ := hlen (by omega)
    have hw := Peer.safe15 (clock := clock) (log := log) (scratch := scratch) (input := input) (s := ⟨c, out⟩) G w
      g.init (g.dev (by omega) (by omega)) (fun p hp h => hi hk (h ▸ hp))
      (fun css xs h1 h2 h3 => (verify_safe G (g.index (by omega) (by omega)) ht1 hn254 h1 h2 h3).1)
      (by simpa [peerInputSize, hk, msg8Size] using hi0) (by simpa [peerOutputSize, hk, msg9Size] using ho0)
    have hh : Peer.handler G clock log mlock scratch rnd input c.step = Peer.step15 G clock log scratch input := by
      rw [hk]; rfl
    rw [← hh] at hw
    obtain ⟨r, s, h, hs⟩ := peerNext_total G hw
    have hin : Init s.ctx := hs.elim (·.2.1) (·.1)
    have hin' : Init (pafter r s.ctx) := ⟨hin.dev, hin.outs, hin.ins⟩
    refine ⟨_, _, _, h, ?_, fun _ _ _ hd => ?_⟩
    · rcases hs with hs | hs
      · exact fail h hin' hs.1
      by_cases hr0 : r = 0
      case neg => exact fail h hin' hr0
      subst hr0
      refine early h hin' (by omega) (index h (by omega) (by omega)) (fun _ => hs.2.1) (fun _ => ?_)
      rw [peerNext_outs G h (by omega) (by omega) (by omega)]
      exact g.outs (by omega) (by omega)
    · rintro (hf | hf)
      · rw [peerNext_outs G h (by omega) (by omega) (by omega)] at hf
        exact hd (.inl hf)
      · rcases hs with hs | hs
        · exact hs.2.2 _ hf rfl
        · exact hs.2.2 _ hf rfl
  · -- 6
    obtain ⟨hi0, ho0⟩ := hlen (by omega)
    have hw := Peer.wp_step17_records (clock := clock) (log := log) (input := input) (s := ⟨c, out⟩) (U := False)
      (fun h => h (hc hk)) w rfl (g.quiet (by omega)).1 (g.quiet (by omega)).2
      (by simpa [peerInputSize, hk, msg10Size, msg9Size] using hi0) (by simpa [peerOutputSize, hk] using ho0)
    have hh : Peer.handler G clock log mlock scratch rnd input c.step = Peer.step17 clock log input := by
      rw [hk]; rfl
    rw [← hh] at hw
    obtain ⟨r, s, h, hs⟩ := peerNext_total G hw
    obtain ⟨hin, hd⟩ := keep h (by omega) (by omega) (by omega) (by omega) (by omega)
    refine ⟨_, _, _, h, ?_, fun _ _ _ => hd⟩
    rcases hs with hs | ⟨rfl, hs1, hs⟩
    · exact fail h hin hs.1
    refine ⟨peerNext_pwf G h w, hin, fun _ _ => index h (by omega) (by omega), fun _ _ => ?_, fun h6 => ?_,
      fun _ _ => ?_, fun _ => ?_⟩
    · rw [peerNext_dev G h (by omega) (by omega)]
      exact g.dev (by omega) (by omega)
    · rcases (peerNext_step G h).2.2 rfl with h | h | h <;> omega
    · rw [peerNext_outs G h (by omega) (by omega) (by omega)]
      exact g.outs (by omega) (by omega)
    · have := recorded_mine hs w.n_le
      rw [(peerNext_params G h).1]
      exact this
  · -- 7
    obtain ⟨hi0, ho0⟩ := hlen (by omega)
    obtain ⟨m1, m2, m3⟩ := g.mine hk
    have hw := Peer.safe17a (clock := clock) (log := log) (input := input) (s := ⟨c, out⟩) hk
      (g.outs (by omega) (by omega)) m1 (by rw [w.outs]; exact m2) m3 (by simpa [peerInputSize, hk] using hi0) ho0
    have hh : Peer.handler G clock log mlock scratch rnd input c.step = Peer.step17a clock log input := by
      rw [hk]; rfl
    rw [← hh] at hw
    obtain ⟨r, s, h, hs⟩ := peerNext_total G hw
    obtain ⟨a, b⟩ := late h (by omega)
    exact ⟨_, _, _, h, a, fun _ _ _ => b⟩
  · -- 8
    have hw := Peer.hash_step19 (clock := clock) (log := log) (input := input) (s := ⟨c, out⟩)
    have hh : Peer.handler G clock log mlock scratch rnd input c.step = Peer.step19 clock log input := by
      rw [hk]; rfl
    rw [← hh] at hw
    obtain ⟨r, s, h, hs⟩ := peerNext_total G hw
    obtain ⟨a, b⟩ := late h (by omega)
    exact ⟨_, _, _, h, a, fun _ _ _ => b⟩
  · -- 9
    obtain ⟨hi0, ho0⟩ := hlen (by omega)
    have hw := Peer.safe21 (clock := clock) (log := log) (input := input) (s := ⟨c, out⟩)
      (verify_safe G (scratch := zero32) (g.index (by omega) (by omega)) ht1 hn254
        (css := List.replicate c.n.toNat (List.replicate c.t.toNat zero32)) (xs := c.xshares) List.length_replicate
        (fun r hr => by rw [List.eq_of_mem_replicate hr]; exact List.length_replicate) w.xshares).2
      (by simpa [peerInputSize, hk, msg20Size] using hi0) (by simpa [peerOutputSize, hk] using ho0)
    have hh : Peer.handler G clock log mlock scratch rnd input c.step = Peer.step21 clock log input := by
      rw [hk]; rfl
    rw [← hh] at hw
    obtain ⟨r, s, h, hs⟩ := peerNext_total G hw
    obtain ⟨a, b⟩ := late h (by omega)
    exact ⟨_, _, _, h, a, fun _ _ _ => b⟩
  · -- 10
    have hh : Peer.handler G clock log mlock scratch rnd input c.step = pure 0 := by rw [hk]; rfl
    have h : peerNext G clock log mlock scratch rnd c input out = .ok (0, pafter 0 c, out) := by
      rw [peerNext_eq, hh]; rfl
    obtain ⟨a, b⟩ := late h (by omega)
    exact ⟨_, _, _, h, a, fun _ _ _ => b⟩

/-! ## The cleanup -/

theorem freeLoop_safe : ∀ (m i : ℕ) (ins outs : List (Ptr Noise.Session)), i + m = ins.length → i + m = outs.length →
    (∀ p ∈ ins.drop i, p.Usable) → (∀ p ∈ outs.drop i, p.Usable) → (freeLoop m i ins outs).Safe := by
  have free_ok : ∀ {p : Ptr Noise.Session}, p.Usable → ∃ q, p.free = .ok q := by
    intro p h
    cases p with
    | uninit => exact absurd rfl h.1
    | null => exact ⟨_, rfl⟩
    | live a => exact ⟨_, rfl⟩
    | freed => exact absurd rfl h.2
  intro m
  induction m with
  | zero => intro i ins outs _ _ _ _; exact ⟨_, rfl⟩
  | succ m ih =>
    intro i ins outs h1 h2 h3 h4
    have hi : i < ins.length := by omega
    have ho : i < outs.length := by omega
    obtain ⟨p, hp⟩ := free_ok (h3 ins[i] (by rw [List.drop_eq_getElem_cons hi]; exact List.mem_cons_self))
    obtain ⟨q, hq⟩ := free_ok (h4 outs[i] (by rw [List.drop_eq_getElem_cons ho]; exact List.mem_cons_self))
    rw [freeLoop, ld_ok hi, C.ok_bind, hp, C.ok_bind, st_ok hi, C.ok_bind, ld_ok ho, C.ok_bind, hq, C.ok_bind, st_ok ho,
      C.ok_bind]
    refine ih _ _ _ (by rw [List.length_set]; omega) (by rw [List.length_set]; omega) ?_ ?_
    · rw [List.drop_set_of_lt (by omega)]
      intro x hx
      exact h3 x (by rw [List.drop_eq_getElem_cons hi]; exact List.mem_cons_of_mem _ hx)
    · rw [List.drop_set_of_lt (by omega)]
      intro x hx
      exact h4 x (by rw [List.drop_eq_getElem_cons ho]; exact List.mem_cons_of_mem _ hx)

theorem freeLoop_freed : ∀ (m i : ℕ) (ins outs : List (Ptr Noise.Session)), i + m = ins.length → i + m = outs.length →
    (.freed ∈ ins.drop i ∨ .freed ∈ outs.drop i) → ¬ (freeLoop m i ins outs).Safe := by
  intro m
  induction m with
  | zero =>
    intro i ins outs h1 h2 h
    rw [List.drop_of_length_le (by omega), List.drop_of_length_le (by omega)] at h
    simp at h
  | succ m ih =>
    intro i ins outs h1 h2 h
    have hi : i < ins.length := by omega
    have ho : i < outs.length := by omega
    rw [List.drop_eq_getElem_cons hi, List.drop_eq_getElem_cons ho, List.mem_cons, List.mem_cons] at h
    rw [freeLoop, ld_ok hi, C.ok_bind]
    rintro ⟨x, hx⟩
    simp only [C.bind_eq_ok] at hx
    obtain ⟨p, hp, ins', hins, a, ha, q, hq, outs', houts, hx⟩ := hx
    rw [ld_ok ho] at ha
    cases ha
    rw [st_ok hi] at hins
    rw [st_ok ho] at houts
    cases hins
    cases houts
    refine ih (i + 1) _ _ (by rw [List.length_set]; omega) (by rw [List.length_set]; omega) ?_ ⟨x, hx⟩
    rw [List.drop_set_of_lt (by omega), List.drop_set_of_lt (by omega)]
    rcases h with (h | h) | (h | h)
    · rw [← h] at hp; cases hp
    · exact .inl h
    · rw [← h] at hq; cases hq
    · exact .inr h

/-- The cleanup is defined unless a session has already been freed. -/
theorem peerFree_safe_iff (w : PWF c) (i : Init c) : (peerFree c).Safe ↔ ¬ c.Dangling := by
  constructor
  · rintro ⟨x, hx⟩ hd
    unfold peerFree at hx
    rw [C.bind_eq_ok] at hx
    obtain ⟨y, hy, -⟩ := hx
    exact freeLoop_freed _ 0 c.ins c.outs (by rw [w.ins]; omega) (by rw [w.outs]; omega)
      (by rw [List.drop_zero, List.drop_zero]; exact hd.symm) ⟨y, hy⟩
  · intro hd
    obtain ⟨⟨a, b⟩, hy⟩ := freeLoop_safe c.n.toNat 0 c.ins c.outs (by rw [w.ins]; omega) (by rw [w.outs]; omega)
      (fun p hp => ⟨i.ins p (by simpa using hp), fun h => hd (.inr (by rw [← h]; simpa using hp))⟩)
      (fun p hp => ⟨i.outs p (by simpa using hp), fun h => hd (.inl (by rw [← h]; simpa using hp))⟩)
    unfold peerFree
    rw [hy, C.ok_bind]
    have hdev := i.dev
    cases hc : c.dev with
    | uninit => exact absurd hc hdev.1
    | null => exact ⟨_, rfl⟩
    | live a => exact ⟨_, rfl⟩
    | freed => exact absurd hc hdev.2

end Verif.TpDkg
