import Verif.Proofs.HonestPeer
import Verif.Props.Dkg

/-!
# The peers in a run in which all parties follow the protocol, steps 13 to 21
-/

set_option linter.unusedSectionVars false

namespace Verif.TpDkg.Honest

open H Wire Spec.Wire

theorem toB32s_flat : ∀ cs : List B32, toB32s cs.length (Peer.flat cs) = cs
  | [] => rfl
  | a :: cs => by
    have ih := toB32s_flat cs
    unfold toB32s Peer.flat at ih ⊢
    rw [List.length_cons, List.range_succ_eq_map, List.map_cons, List.map_map]
    congr 1
    · rw [List.flatMap_cons, Nat.mul_zero, List.drop_zero, List.take_left' (by simp), toB32_toList]
    · conv_rhs => rw [← ih]
      apply List.map_congr_left
      intro k _
      simp only [Function.comp]
      rw [List.flatMap_cons, List.drop_append, List.drop_of_length_le (by simp), List.nil_append]
      congr 3
      simp
      omega

variable [Signing] [Hashes] [NoiseCrypto] [Mac] (G : Type) [Ristretto G]

/-- The rows of the commitments grow with the loop. -/
theorem upto_slice {α : Type} {n m t : ℕ} {F : ℕ → List α} {f : ℕ → Option (List α)} {l : List α} (hm : m < n)
    (hl : l.length = n * t) (hF : (F m).length = t)
    (h : ∀ j < n, ∀ x, upto m F f j = some x → slice l (j * t) t = x) :
    ∀ j < n, ∀ x, upto (m + 1) F f j = some x → slice (splice l (m * t) (F m)) (j * t) t = x := by
  have hle := le_mul (sz := t) hm
  have hfit : m * t + (F m).length ≤ l.length := by omega
  intro j hj x hx
  rcases Nat.lt_trichotomy j m with hjm | rfl | hjm
  · have := le_mul (sz := t) hjm
    rw [slice_splice_before hfit (by omega)]
    apply h j hj
    unfold upto at hx ⊢
    rw [if_pos hjm]
    rwa [if_pos (by omega)] at hx
  · unfold upto at hx
    rw [if_pos (by omega)] at hx
    cases hx
    have := slice_splice_same hfit
    rwa [hF] at this
  · have := le_mul (sz := t) hjm
    rw [slice_splice_after hfit (by omega)]
    apply h j hj
    unfold upto at hx ⊢
    rw [if_neg (by omega)]
    rwa [if_neg (by omega)] at hx

variable {S : Setup} {lo i : ℕ} {btp : UInt64} {b : ℕ → UInt64} {K : Know} {c : PeerState} {log : Bool}

/-- The encrypted share of peer `i` for peer `j`. -/
noncomputable def box8 (S : Setup) (i j : ℕ) : Bytes := box S i j (Peer.shareBytes (dealtTo S i j))

/-- The body of message 8. -/
noncomputable def body8 (S : Setup) (i j : ℕ) : Bytes :=
  (link S i j).m3 ++ box8 S i j ++ (Mac.auth (link S i j).k1 (box8 S i j)).toList

theorem shareBytes_length (s : Share) : (Peer.shareBytes s).length = 33 := by simp [Peer.shareBytes]

theorem box8_length (i j : ℕ) : (box8 S i j).length = 49 := box_length S i j (shareBytes_length _)

theorem body8_length (i j : ℕ) : (body8 S i j).length = 145 := by
  unfold body8
  rw [List.length_append, List.length_append, (link_of S i j).l3, box8_length]
  simp

theorem commits_length (j : ℕ) : (commits G S j).length = S.t.toNat := by simp [commits]

/-- The body of message 6. -/
noncomputable def body6 (S : Setup) (j : ℕ) : Bytes := Peer.flat (commits G S j)

theorem body6_length (j : ℕ) : (body6 G S j).length = 32 * S.t.toNat := by
  unfold body6
  rw [Peer.flat_length, commits_length]

/-! ### Step 13 -/

theorem splice_three {w x y z : Bytes} {a : ℕ} (hx : x.length = 64) (hy : y.length = 49) (hz : z.length = 32)
    (h : a + 145 ≤ w.length) : splice (splice (splice w a x) (a + 64) y) (a + 64 + 49) z = splice w a (x ++ y ++ z) := by
  have e1 : splice (splice w a x) (a + 64) y = splice w a (x ++ y) := splice_two hx (by omega)
  have e2 : splice (splice w a (x ++ y)) (a + 113) z = splice w a (x ++ y ++ z) :=
    splice_two (by rw [List.length_append, hx, hy]) (by omega)
  rw [e1]
  exact e2

theorem put8_eq (S : Setup) (i j : ℕ) {out : Bytes} (h : j * 256 + 256 ≤ out.length) :
    Peer.put8 out j (link S i j).m3 (box8 S i j) (link S i j).k1 = splice out (j * 256 + 111) (body8 S i j) :=
  splice_three (link_of S i j).l3 (box8_length i j) (by simp) (by omega)

theorem step13_ok {out : Bytes} {tt : UInt64} {ts : ℕ → UInt64} (hS : S.Honest lo) (hi : i < S.n.toNat)
    (A : PAt S lo i btp b K c) (hme : K.me = true) (hkeys : K.keys = S.n.toNat)
    (houts : ∀ j < S.n.toNat, K.outs j = some (link S i j).i2)
    (hsh : ∀ j < S.n.toNat, K.shares j = some (dealtTo S i j)) (hb : btp ≤ tt) (hw : InWin lo S.eps tt)
    (hb' : ∀ j < S.n.toNat, b j ≤ ts j) (hw' : ∀ j < S.n.toNat, InWin lo S.eps (ts j)) (ho : out.length = S.n.toNat * 256) :
    PGood (Peer.step13 (S.env i).clock log (tmsg S 7 0xff tt (cat S.n.toNat fun j => pmsg S j 6 0xff (ts j) (body6 G S j))))
      (fun s => PAt S lo i tt ts { K with
          outs := upto S.n.toNat (fun j => i3 S i j 1) K.outs
          comm := upto S.n.toNat (fun j => commits G S j) K.comm } s.ctx ∧
        s.ctx.step = c.step ∧
        s.ctx.transcript = updateTranscript c.transcript
          (tmsg S 7 0xff tt (cat S.n.toNat fun j => pmsg S j 6 0xff (ts j) (body6 G S j))) ∧
        ∃ ts', Chain lo S.eps ((S.env i).clock c.ticks) S.n.toNat ts' ((S.env i).clock s.ctx.ticks) ∧
          s.out = cat S.n.toNat fun j => pmsg S i 8 (idx j) (ts' j) (body8 S i j))
      ⟨c, out⟩ := by
  obtain ⟨hn3, hn128⟩ := n_lt hS
  have htn := hS.t_lt
  obtain ⟨sz, hsz⟩ : ∃ sz, sz = 111 + 32 * S.t.toNat := ⟨_, rfl⟩
  have hm6 : msg6Size S.t = sz := hsz.symm
  have hg : ∀ j < S.n.toNat, (pmsg S j 6 0xff (ts j) (body6 G S j)).length = sz := fun j _ => by
    rw [pmsg_length, body6_length, hsz]
  have hcl := cat_length hg
  set body := cat S.n.toNat fun j => pmsg S j 6 0xff (ts j) (body6 G S j) with hbody
  set input := tmsg S 7 0xff tt body with hinput
  have hil : input.length = 111 + S.n.toNat * sz := by rw [hinput, tmsg_length, hcl]
  have hbig : S.n.toNat * sz ≤ 128 * 5000 := Nat.mul_le_mul hn128 (by omega)
  have A' := A.mono hb hb'
  have key : ∀ r last k, recvMsg ((S.env i).clock c.ticks) input 0 input.length 7 0 0xff c.tpSigPk c.sid c.eps
      c.tpLastTs = .ok (r, last, k) → r = 0 ∧ last = tt :=
    fun r last k hr => A'.recvTp hS hi hw (by rw [hil]; omega) rfl hr
  unfold PGood
  refine Peer.wp_step13 (n := S.n.toNat) (by rw [A.n]) (by dsimp only; rw [A.t, hm6, hil, Nat.mul_comm]) ho (fun j s =>
    PAt S lo i tt ts { K with
      outs := upto j (fun j => i3 S i j 1) K.outs
      comm := upto j (fun j => commits G S j) K.comm } s.ctx ∧
    s.ctx.step = c.step ∧ s.ctx.transcript = updateTranscript c.transcript input ∧
    Sent S lo i ((S.env i).clock c.ticks) 256 (S.n.toNat * 256)
      (fun j ts => pmsg S i 8 (idx j) ts (body8 S i j)) j s) ?_ ?_ ?_ ?_
  · intro r last k hr h0
    exact h0 (key r last k hr).1
  · intro last k hr
    obtain ⟨-, rfl⟩ := key 0 last k hr
    refine ⟨?_, rfl, rfl, Sent.nil hS hi (p_mono hS hi (Nat.le_add_right _ _)) (by dsimp only; omega)⟩
    have := A'.receivedTp (k := k) hw.1
    exact { this with
      outs := by rw [upto_zero]; exact A.outs
      comm := by rw [upto_zero]; exact A.comm }
  · rintro j s hj ⟨B, h1, h2, h3⟩
    have hle := le_mul (sz := sz) hj
    have hle2 := le_mul (sz := 256) hj
    have hle3 := le_mul (sz := S.t.toNat) hj
    have hm : slice input (111 + j * sz) sz = pmsg S j 6 0xff (ts j) (body6 G S j) := by
      have e := slice_cat hg hj
      have e2 := slice_smsg (buf := input) (off := 0) (len := input.length) (a := j * sz) (k := sz)
        (by rw [slice_all]; rfl) (by rw [hil]; omega)
      rw [Nat.zero_add] at e2
      rw [e2, e]
    have hcm : Peer.commits6 S.t input j = commits G S j := by
      unfold Peer.commits6
      rw [hm6, show 111 + j * sz + 111 = 111 + j * sz + (111 + 0) from rfl, slice_smsg hm (by omega)]
      unfold slice
      rw [List.drop_zero, List.take_of_length_le (by rw [body6_length])]
      have := toB32s_flat (commits G S j)
      rwa [commits_length] at this
    have hts : j < s.ctx.lastTs.length := by rw [B.lastTs_len]; exact hj
    have hpkl : j < s.ctx.sigPks.length := by rw [B.sigPks_len]; exact hj
    have hol : j < s.ctx.outs.length := by rw [B.outs_len]; exact hj
    have hsl : j < s.ctx.shares.length := by rw [B.shares_len]; exact hj
    have hslot : s.ctx.outs[j] = .live (link S i j).i2 := by
      have := B.outs j hj (link S i j).i2 (by dsimp only; unfold upto; rw [if_neg (by omega)]; exact houts j hj)
      rw [List.getElem?_eq_getElem hol] at this
      exact Option.some.inj this
    have hshare : s.ctx.shares[j] = dealtTo S i j := by
      have := B.shares j hj _ (hsh j hj)
      rw [List.getElem?_eq_getElem hsl] at this
      exact Option.some.inj this
    have kr : ∀ r last k, recvMsg ((S.env i).clock s.ctx.ticks) input (111 + j * msg6Size S.t) (msg6Size S.t) 6 (idx j) 0xff
        s.ctx.sigPks[j] s.ctx.sid s.ctx.eps s.ctx.lastTs[j] = .ok (r, last, k) → r = 0 ∧ last = ts j := by
      intro r last k hr
      rw [hm6] at hr
      exact B.recv hS hi hj hts (hw' j hj) (body := body6 G S j) (by rw [body6_length, hsz]) (by omega) (by omega) hm
        (B.key (by dsimp only; omega) hpkl) hr
    have hct : c.t = S.t := A.t
    dsimp only
    rw [hct]
    refine Peer.wp_step13Body (t := S.t) (by rw [hm6, Nat.add_mul]; omega) (by rw [h3.1]; omega) hts hpkl hsl
      (by rw [B.comm_len, Nat.add_mul]; omega) hol (r1 := 0) (slot1 := .live (i3 S i j 0)) (o1 := some (link S i j).m3) ?_ ?_ ?_
    · rw [hslot]
      exact encrypt_first S i j
    · intro r last k hr h0
      exact h0 (kr r last k hr).1
    · intro last k hr
      obtain ⟨-, rfl⟩ := kr 0 last k hr
      refine ⟨fun h => absurd rfl h, fun _ => ⟨(link S i j).m3, 0, .live (i3 S i j 1), some (box8 S i j), rfl, ?_,
        fun h => absurd rfl h, fun _ => ⟨box8 S i j, (link S i j).k1, rfl, keyAt_out S i j 1, ?_⟩⟩⟩
      · rw [hshare]
        exact encrypt_second S i j (shareBytes_length _)
      have B' := B.received (j := j) (k := k) (hw' j hj).1
      unfold Peer.after13
      simp only [hcm]
      have hput : Peer.put8 s.out j (link S i j).m3 (box8 S i j) (link S i j).k1 =
          splice s.out (j * 256 + 111) (body8 S i j) := by
        exact put8_eq S i j (by rw [h3.1]; exact hle2)
      rw [hput]
      obtain ⟨p1, p2⟩ := put_msg (out := s.out) (i := j) (sz := 256) (m := body8 S i j)
        (Peer.header_length s.ctx ((S.env i).clock (s.ctx.ticks + k)) 256 8 (idx j)) (by rw [body8_length])
        (by rw [h3.1]; omega)
      refine ⟨?_, h1, h2, h3.snoc (k := k) hS hi rfl p2 ?_⟩
      · exact { B' with
          outs_len := by simp; exact B.outs_len
          comm_len := by
            dsimp only
            rw [splice_length (by rw [commits_length, B.comm_len]; omega), B.comm_len]
          outs := upto_set hol B.outs
          comm := upto_slice hj B.comm_len (commits_length G j) B.comm }
      · dsimp only
        rw [p1, header_eq B hme (by rw [body8_length])]
  · rintro s ⟨B, h1, h2, h3⟩
    exact ⟨rfl, B, h1, h2, h3.all rfl⟩

/-! ### Step 15 -/

/-- The body of message 9 without complaints. -/
def body9 (S : Setup) : Bytes := 0 :: List.replicate S.n.toNat 0

theorem honest_verifies (hS : S.Honest lo) {j : ℕ} (hj : j < S.n.toNat) (hi : i < S.n.toNat) (scratch : B32) (x : UInt8) :
    Dkg.verifyCommitment G scratch S.t (idx i) x (commits G S j) (dealtTo S j i) = .ok 0 := by
  have ht := hS.t_ge
  have hn := hS.n_le
  have hx := idx_toNat hS hi
  obtain ⟨cs, shares, h1, -, -, h2⟩ := Props.C22_honest_shares_verify G S.n S.t (S.env j).rnd.coeff (hS.coeff j hj)
    (List.replicate S.t.toNat zero32) (List.replicate S.n.toNat ⟨0, zero32⟩) (by omega) (by omega) (by simp) (by simp)
  rw [Dkg.start_eq G S.n S.t (S.env j).rnd.coeff _ _ (by omega) (by omega) (by simp) (by simp) (hS.coeff j hj 0).1,
    List.drop_of_length_le (by simp), List.append_nil, List.drop_of_length_le (by simp), List.append_nil] at h1
  simp only [C.ok.injEq, Prod.mk.injEq, true_and] at h1
  obtain ⟨rfl, rfl⟩ := h1
  refine (h2 (idx i) x scratch (dealtTo S j i) (by omega) ?_).2
  rw [hx, Nat.add_sub_cancel, List.getElem?_map, List.getElem?_range' hi]
  simp [dealtTo, idx, Nat.add_comm]

theorem verify_none (hS : S.Honest lo) (hi : i < S.n.toNat) {scratch : B32} {css : List (List B32)} {shares : List Share}
    (hcl : css.length = S.n.toNat) (hsl : shares.length = S.n.toNat)
    (hc : ∀ j < S.n.toNat, css[j]? = some (commits G S j)) (hs : ∀ j < S.n.toNat, shares[j]? = some (dealtTo S j i)) :
    Dkg.verifyCommitments G scratch S.n S.t (idx i) css shares (List.replicate S.n.toNat 0) =
      .ok (0, List.replicate S.n.toNat 0, 0) := by
  have hn := hS.n_le
  have h := Dkg.verifyAll_eq G scratch S.n S.t (idx i) css shares (by omega) (by omega) (by omega) (fun _ => false) (by
    intro x cx sx hx1 hx2 _ hcx hsx
    rw [hc _ (by omega)] at hcx
    rw [hs _ (by omega)] at hsx
    cases hcx
    cases hsx
    exact honest_verifies G hS (by omega) hi scratch x) 257 1 [] (List.replicate S.n.toNat 0) (by decide)
    (by show 1 ≤ _; omega) (by show S.n.toNat + 1 - 1 < 257; omega) (by simp) (by simp)
  unfold Dkg.verifyCommitments
  simp only [List.nil_append, List.length_nil] at h
  have e : UInt8.ofNat 0 = 0 := rfl
  rw [e] at h
  rw [h]
  simp

theorem step15_ok {out : Bytes} {ts : ℕ → UInt64} {scratch : B32} (hS : S.Honest lo) (hi : i < S.n.toNat)
    (A : PAt S lo i btp b K c) (hme : K.me = true) (hkeys : K.keys = S.n.toNat)
    {m : ℕ} (hdev : K.dev = some (S.n.toNat, m)) (hins : ∀ j < S.n.toNat, K.ins j = some (link S j i).r2)
    (hcomm : ∀ j < S.n.toNat, K.comm j = some (commits G S j))
    (hb' : ∀ j < S.n.toNat, b j ≤ ts j) (hw' : ∀ j < S.n.toNat, InWin lo S.eps (ts j))
    (ho : out.length = 111 + (S.n.toNat + 1)) :
    PGood (Peer.step15 G (S.env i).clock log scratch (cat S.n.toNat fun j => pmsg S j 8 (idx i) (ts j) (body8 S j i)))
      (fun s => PAt S lo i btp ts { K with
          ins := upto S.n.toNat (fun j => r3 S j i 1) K.ins
          xshares := upto S.n.toNat (fun j => dealtTo S j i) K.xshares } s.ctx ∧ PKept c s.ctx ∧
        ∃ tt, InWin lo S.eps tt ∧ (S.env i).clock c.ticks ≤ tt ∧ tt ≤ (S.env i).clock s.ctx.ticks ∧
          s.out = pmsg S i 9 0xff tt (body9 S))
      ⟨c, out⟩ := by
  obtain ⟨hn3, hn128⟩ := n_lt hS
  have hg : ∀ j < S.n.toNat, (pmsg S j 8 (idx i) (ts j) (body8 S j i)).length = 256 :=
    fun j _ => by rw [pmsg_length, body8_length]
  have hil := cat_length hg
  set input := cat S.n.toNat fun j => pmsg S j 8 (idx i) (ts j) (body8 S j i) with hinput
  have A' := A.mono (UInt64.le_refl btp) hb'
  unfold PGood
  refine Peer.wp_step15 G (n := S.n.toNat) (by rw [A.n]) (by omega) ho (fun j s =>
    PAt S lo i btp ts { K with
      ins := upto j (fun j => r3 S j i 1) K.ins
      xshares := upto j (fun j => dealtTo S j i) K.xshares } s.ctx ∧ PKept c s.ctx ∧ s.out = out) ?_ ?_ ?_ ?_
  · refine ⟨?_, PKept.refl c, rfl⟩
    exact { A' with
      ins := by rw [upto_zero]; exact A.ins
      xshares := by rw [upto_zero]; exact A.xshares }
  · rintro j s hj ⟨B, h1, h3⟩
    have hle := le_mul (sz := 256) hj
    obtain ⟨dv, hdv, D⟩ := B.dev _ hdev
    have hm : slice input (j * 256) 256 = pmsg S j 8 (idx i) (ts j) (body8 S j i) := slice_cat hg hj
    have l3 := (link_of S j i).l3
    have hh3 : Peer.h3Msg input j = (link S j i).m3 := by
      unfold Peer.h3Msg
      rw [show j * 256 + 111 = j * 256 + (111 + 0) from rfl, slice_smsg hm (by omega)]
      unfold slice body8
      rw [List.drop_zero, List.append_assoc, List.take_left' l3]
    have hbx : Peer.boxMsg input j = box8 S j i := by
      unfold Peer.boxMsg
      rw [show j * 256 + 111 + 64 = j * 256 + (111 + 64) from rfl, slice_smsg hm (by omega)]
      unfold slice body8
      rw [List.append_assoc, List.drop_left' l3, List.take_left' (box8_length _ _)]
    have hmac : Peer.macMsg input j = (Mac.auth (link S j i).k1 (box8 S j i)).toList := by
      unfold Peer.macMsg
      rw [show j * 256 + 111 + 113 = j * 256 + (111 + 113) from rfl, slice_smsg hm (by omega)]
      unfold slice body8
      rw [List.drop_left' (by rw [List.length_append, l3, box8_length]), List.take_of_length_le (by simp)]
    have hts : j < s.ctx.lastTs.length := by rw [B.lastTs_len]; exact hj
    have hpkl : j < s.ctx.sigPks.length := by rw [B.sigPks_len]; exact hj
    have hil : j < s.ctx.ins.length := by rw [B.ins_len]; exact hj
    have hxl : j < s.ctx.xshares.length := by rw [B.xshares_len]; exact hj
    have hslot : s.ctx.ins[j] = .live (link S j i).r2 := by
      have := B.ins j hj (link S j i).r2 (by dsimp only; unfold upto; rw [if_neg (by omega)]; exact hins j hj)
      rw [List.getElem?_eq_getElem hil] at this
      exact Option.some.inj this
    have kr : ∀ r last k, recvMsg ((S.env i).clock s.ctx.ticks) input (j * 256) 256 8 (idx j) s.ctx.index
        s.ctx.sigPks[j] s.ctx.sid s.ctx.eps s.ctx.lastTs[j] = .ok (r, last, k) → r = 0 ∧ last = ts j := by
      intro r last k hr
      rw [(B.me hme).1] at hr
      exact B.recv hS hi hj hts (hw' j hj) (body := body8 S j i) (by rw [body8_length]) (by omega) (by omega) hm
        (B.key (by dsimp only; omega) hpkl) hr
    refine Peer.wp_step15Body (dv := dv) (r1 := 0) (slot1 := .live (r3 S j i 0)) (o1 := some []) (by omega) hts hpkl hxl hil
      hdv ?_ ?_ ?_
    · rw [hslot, hh3]
      exact D.decrypt_first (keys_inj hS (le_refl _)) hj
    · intro r last k hr h0
      exact h0 (kr r last k hr).1
    · intro last k hr
      obtain ⟨-, rfl⟩ := kr 0 last k hr
      refine ⟨fun h => absurd rfl h, fun _ => ⟨(link S j i).k1, keyAt_in S j i 0, fun h => absurd (by rw [hbx, hmac]) h,
        fun _ => ⟨0, .live (r3 S j i 1), some (Peer.shareBytes (dealtTo S j i)), ?_, fun h => absurd rfl h, fun _ => ?_⟩⟩⟩
      · rw [hbx]
        exact decrypt_second S dv j i (shareBytes_length _)
      have B' := B.received (j := j) (k := k) (hw' j hj).1
      have hso : Peer.shareOf ((some (Peer.shareBytes (dealtTo S j i))).getD []) = dealtTo S j i := by
        simp [Peer.shareOf, Peer.shareBytes, toB32_toList]
      unfold Peer.after15
      rw [hso]
      refine ⟨?_, ⟨h1.step, h1.transcript, le_trans h1.ticks (Nat.le_add_right _ _)⟩, h3⟩
      exact { B' with
        ins_len := by simp; exact B.ins_len
        xshares_len := by simp; exact B.xshares_len
        ins := upto_set hil B.ins
        xshares := upto_set (g := id) hxl B.xshares }
  · rintro s ⟨B, h1, h3⟩
    exact ⟨h3, by rw [B.n, A.n], by rw [B.t, A.t], by rw [B.comm_len, A.t]⟩
  · rintro s ⟨B, h1, h3⟩
    obtain ⟨e1, e2, -⟩ := B.me hme
    refine ⟨0, List.replicate S.n.toNat 0, 0, ?_, rfl, ?_, ?_, ?_⟩
    · rw [A.n, A.t, e1]
      refine verify_none G hS hi (by simp [Peer.rows]) B.xshares_len ?_ ?_
      · intro j hj
        have := B.comm j hj _ (hcomm j hj)
        unfold Peer.rows
        rw [List.take_of_length_le (by rw [B.comm_len]), List.getElem?_map, List.getElem?_range hj]
        exact congrArg some this
      · intro j hj
        exact B.xshares j hj _ (by dsimp only; exact upto_lt (F := fun j => dealtTo S j i) hj)
    · exact B.tick _
    · exact ⟨h1.step, h1.transcript, le_trans h1.ticks (Nat.le_succ _)⟩
    · refine ⟨_, p_win hS hi s.ctx.ticks, p_mono hS hi h1.ticks, p_mono hS hi (Nat.le_succ _), ?_⟩
      unfold Peer.msg9 pmsg smsg
      have hbl : (body9 S).length = S.n.toNat + 1 := by simp [body9]
      rw [B.n, B.sid, e1, e2, hbl]
      rfl

/-! ### Step 17 -/

theorem step17_ok {tt : UInt64} {ts : ℕ → UInt64} (hS : S.Honest lo) (hi : i < S.n.toNat)
    (A : PAt S lo i btp b K c) (hkeys : K.keys = S.n.toNat) (hb : btp ≤ tt) (hw : InWin lo S.eps tt)
    (hb' : ∀ j < S.n.toNat, b j ≤ ts j) (hw' : ∀ j < S.n.toNat, InWin lo S.eps (ts j)) :
    PGood (Peer.step17 (S.env i).clock log (tmsg S 10 0xff tt (cat S.n.toNat fun j => pmsg S j 9 0xff (ts j) (body9 S))))
      (fun s => PAt S lo i tt ts K s.ctx ∧ s.ctx.step = c.step + 1 ∧
        s.ctx.transcript = updateTranscript c.transcript
          (tmsg S 10 0xff tt (cat S.n.toNat fun j => pmsg S j 9 0xff (ts j) (body9 S))) ∧
        (S.env i).clock c.ticks ≤ (S.env i).clock s.ctx.ticks ∧ s.out = [])
      ⟨c, []⟩ := by
  obtain ⟨hn3, hn128⟩ := n_lt hS
  have hbl : (body9 S).length = S.n.toNat + 1 := by simp [body9]
  obtain ⟨sz, hsz⟩ : ∃ sz, sz = 111 + (S.n.toNat + 1) := ⟨_, rfl⟩
  have hm9 : msg9Size S.n = sz := by rw [hsz]; rfl
  have hg : ∀ j < S.n.toNat, (pmsg S j 9 0xff (ts j) (body9 S)).length = sz := fun j _ => by
    rw [pmsg_length, hbl, hsz]
  have hcl := cat_length hg
  set body := cat S.n.toNat fun j => pmsg S j 9 0xff (ts j) (body9 S) with hbody
  set input := tmsg S 10 0xff tt body with hinput
  have hil : input.length = 111 + S.n.toNat * sz := by rw [hinput, tmsg_length, hcl]
  have hbig : S.n.toNat * sz ≤ 128 * 5000 := Nat.mul_le_mul hn128 (by omega)
  have A' := A.mono hb hb'
  have key : ∀ r last k, recvMsg ((S.env i).clock c.ticks) input 0 input.length 10 0 0xff c.tpSigPk c.sid c.eps
      c.tpLastTs = .ok (r, last, k) → r = 0 ∧ last = tt :=
    fun r last k hr => A'.recvTp hS hi hw (by rw [hil]; omega) rfl hr
  unfold PGood
  refine Peer.wp_step17 (n := S.n.toNat) (by rw [A.n]) (by rw [hil, hsz]) rfl (fun j s =>
    PAt S lo i tt ts K s.ctx ∧ s.ctx.step = c.step ∧ s.ctx.transcript = updateTranscript c.transcript input ∧
    c.ticks ≤ s.ctx.ticks ∧ s.out = []) ?_ ?_ ?_ ?_ ?_
  · intro r last k hr h0
    exact h0 (key r last k hr).1
  · intro last k hr
    obtain ⟨-, rfl⟩ := key 0 last k hr
    refine ⟨?_, rfl, rfl, Nat.le_add_right _ _, rfl⟩
    have := A'.receivedTp (k := k) hw.1
    exact { this with }
  · rintro j s hj ⟨B, h1, h2, h3, h4⟩
    have hle := le_mul (sz := sz) hj
    have hm : slice input (111 + j * sz) sz = pmsg S j 9 0xff (ts j) (body9 S) := by
      have e := slice_cat hg hj
      have e2 := slice_smsg (buf := input) (off := 0) (len := input.length) (a := j * sz) (k := sz)
        (by rw [slice_all]; rfl) (by rw [hil]; omega)
      rw [Nat.zero_add] at e2
      rw [e2, e]
    have hts : j < s.ctx.lastTs.length := by rw [B.lastTs_len]; exact hj
    have hpkl : j < s.ctx.sigPks.length := by rw [B.sigPks_len]; exact hj
    have hcn := A.n
    unfold Peer.step17Body
    dsimp only [hdrSize]
    rw [hcn, hm9, wp_bind, Peer.wp_dump (by omega), wp_bind, Peer.wp_sigPkOf hpkl, wp_bind]
    refine Peer.wp_recv (by omega) (by omega) hts fun r last k hr => ?_
    obtain ⟨rfl, rfl⟩ : r = 0 ∧ last = ts j :=
      B.recv hS hi hj hts (hw' j hj) (body := body9 S) (by rw [hbl, hsz]) (by omega) (by omega) hm
        (B.key (by omega) hpkl) hr
    rw [wp_ite]
    refine ⟨fun h => absurd rfl h, fun _ => ?_⟩
    have hld : ld input (111 + j * sz + 111) = .ok 0 := by
      have e1 := slice_smsg (a := 0) (k := 1) hm (by omega)
      have e2 : 111 + j * sz + 111 < input.length := by omega
      rw [ld_ok e2]
      unfold slice at e1
      rw [List.drop_eq_getElem_cons e2, List.take_succ_cons, List.take_zero, List.drop_zero] at e1
      rw [(List.cons.inj (e1.trans (rfl : List.take 1 (body9 S) = [0]))).1]
    rw [wp_bind, wp_lift_ok (rd_slice_ok (by omega)), wp_bind, wp_lift_ok hld, wp_ite]
    refine ⟨fun h => absurd h (by simp), fun _ => ?_⟩
    refine wp_forN (fun _ s' => s' = { s with ctx := Peer.received s.ctx j (ts j) k }) rfl ?_ ?_
    · intro k' _ hk' _
      simp at hk'
    · rintro s' rfl
      exact ⟨B.received (j := j) (k := k) (hw' j hj).1, h1, h2, le_trans h3 (Nat.le_add_right _ _), h4⟩
  · rintro s ⟨B, -⟩ h
    exact absurd B.complaintsLen h
  · rintro s ⟨B, h1, h2, h3, h4⟩ -
    exact ⟨rfl, { B with }, by show s.ctx.step + 1 = _; rw [h1], h2, p_mono hS hi h3, h4⟩

/-! ### Step 19 -/

/-- The message with the hash of the transcript. -/
def pmsg20 (S : Setup) (i : ℕ) (tr : Bytes) (ts : UInt64) : Bytes := pmsg S i 20 0 ts (Hashes.generichash32 tr).toList

theorem step19_ok {out : Bytes} (hS : S.Honest lo) (hi : i < S.n.toNat) (A : PAt S lo i btp b K c) (hme : K.me = true)
    (ho : out.length = 143) :
    PGood (Peer.step19 (S.env i).clock log [])
      (fun s => PAt S lo i btp b K s.ctx ∧ PKept c s.ctx ∧
        ∃ tt, InWin lo S.eps tt ∧ (S.env i).clock c.ticks ≤ tt ∧ tt ≤ (S.env i).clock s.ctx.ticks ∧
          s.out = pmsg20 S i c.transcript tt)
      ⟨c, out⟩ := by
  have hhl : ((Hashes.generichash32 c.transcript).toList).length = 32 := by simp
  obtain ⟨p1, p2⟩ := put_msg' (a := 0) (sz := 143) (out := out) (m := (Hashes.generichash32 c.transcript).toList)
    (Peer.header_length c ((S.env i).clock c.ticks) 143 20 0) (by rw [hhl]) (by omega)
  unfold PGood Peer.step19
  rw [wp_bind, wp_get, wp_ite]
  refine ⟨fun h => absurd rfl h, fun _ => ?_⟩
  rw [wp_ite]
  refine ⟨fun h => absurd ho h, fun _ => ?_⟩
  rw [wp_bind, Peer.wp_setOut (by dsimp only [hdrSize]; rw [hhl, ho]), wp_bind,
    Peer.wp_send (by dsimp only [hdrSize]; rw [splice_length (by rw [hhl, ho]), ho]; norm_num), wp_bind,
    Peer.wp_dumpOut (by
      dsimp only [hdrSize, msg19Size]
      rw [Nat.zero_add] at p2
      rw [p2, ho]), wp_pure]
  refine ⟨rfl, A.tick _, ⟨rfl, rfl, Nat.le_succ _⟩, _, p_win hS hi c.ticks, UInt64.le_refl _, p_mono hS hi (Nat.le_succ _), ?_⟩
  rw [Nat.zero_add] at p1 p2
  rw [List.take_of_length_le (by rw [p2, ho]), List.take_zero, List.nil_append, header_eq A hme (by rw [hhl])] at p1
  exact p1

/-! ### Step 21 -/

/-- The share that peer `i` ends with. -/
noncomputable def finalShare (S : Setup) (i : ℕ) : Share :=
  ⟨idx i, B32.ofZ (((List.range S.n.toNat).map fun j => (dealtTo S j i).value.val).sum)⟩

theorem step21_ok {out : Bytes} {tt : UInt64} (hS : S.Honest lo) (hi : i < S.n.toNat) (A : PAt S lo i btp b K c)
    (hme : K.me = true) (hxs : ∀ j < S.n.toNat, K.xshares j = some (dealtTo S j i)) (hb : btp ≤ tt)
    (hw : InWin lo S.eps tt) (ho : out.length = 113) :
    PGood (Peer.step21 (S.env i).clock log (tmsg S 21 0xff tt [79, 75]))
      (fun s => PAt S lo i tt b K s.ctx ∧ PKept c s.ctx ∧ s.ctx.share = finalShare S i ∧
        ∃ ts, InWin lo S.eps ts ∧ (S.env i).clock c.ticks ≤ ts ∧ ts ≤ (S.env i).clock s.ctx.ticks ∧
          s.out = pmsg S i 22 0 ts [79, 75])
      ⟨c, out⟩ := by
  have A' := A.mono hb fun j _ => UInt64.le_refl (b j)
  obtain ⟨input, hinput⟩ : ∃ input, input = tmsg S 21 0xff tt [79, 75] := ⟨_, rfl⟩
  have hin : input.length = 113 := by rw [hinput, tmsg_length]; rfl
  have key : ∀ r last k, recvMsg ((S.env i).clock c.ticks) input 0 input.length 21 0 0xff c.tpSigPk c.sid c.eps
      c.tpLastTs = .ok (r, last, k) → r = 0 ∧ last = tt :=
    fun r last k hr => A'.recvTp hS hi hw (by rw [hin]; norm_num) hinput hr
  have hdata : slice input 111 2 = [79, 75] := by
    have := slice_smsg (buf := input) (off := 0) (len := input.length) (a := 0) (k := 2)
      (by rw [slice_all]; exact hinput) (by rw [hin])
    rw [Nat.zero_add] at this
    rw [this]; rfl
  have hxeq : c.xshares = (List.range S.n.toNat).map fun j => dealtTo S j i := by
    apply List.ext_getElem?
    intro j
    by_cases hj : j < S.n.toNat
    · rw [A.xshares j hj _ (hxs j hj), List.getElem?_map, List.getElem?_range hj]; rfl
    · rw [List.getElem?_eq_none (by rw [A.xshares_len]; omega), List.getElem?_eq_none (by simp; omega)]
  have hfin : ∀ v : B32, Dkg.finish S.n c.xshares ⟨idx i, v⟩ = .ok (finalShare S i) := by
    intro v
    rw [Dkg.finish_eq S.n _ _ (by rw [A.xshares_len]) (by
      intro s hs
      rw [hxeq, List.mem_map] at hs
      obtain ⟨j, _, rfl⟩ := hs
      exact lt_trans (B32.canonical_ofZ _) L_lt_255), List.take_of_length_le (by rw [A.xshares_len]), hxeq, List.map_map]
    rfl
  rw [← hinput]
  unfold PGood Peer.step21
  rw [wp_bind, wp_get, wp_ite]
  refine ⟨fun h => absurd hin h, fun _ => ?_⟩
  rw [wp_ite]
  refine ⟨fun h => absurd ho h, fun _ => ?_⟩
  rw [wp_bind, Peer.wp_dump (by omega), wp_bind]
  refine Peer.wp_recvTp (by omega) fun r last k hr => ?_
  obtain ⟨rfl, rfl⟩ := key r last k hr
  rw [wp_ite]
  refine ⟨fun h => absurd rfl h, fun _ => ?_⟩
  dsimp only [hdrSize]
  rw [wp_bind, wp_lift_ok (rd_slice_ok (by omega)), hdata, wp_ite]
  refine ⟨fun _ => ?_, fun h => absurd rfl h⟩
  have B := A'.receivedTp (k := k) hw.1
  obtain ⟨e1, -, -⟩ := B.me hme
  have hf := hfin (Peer.receivedTp c last k).share.value
  rw [← B.n, ← e1] at hf
  rw [wp_bind, wp_get, wp_bind]
  dsimp only
  rw [wp_lift_ok (show Dkg.finish _ (Peer.receivedTp c last k).xshares _ = _ from hf), wp_bind, Peer.wp_setCtx, wp_bind, Peer.wp_setOut (by dsimp only; rw [ho]; decide),
    wp_bind]
  set c1 : PeerState := { Peer.receivedTp c last k with share := finalShare S i } with hc1
  have B1 : PAt S lo i last b K c1 := { B with }
  obtain ⟨p1, p2⟩ := put_msg' (a := 0) (sz := 113) (out := out) (m := [79, 75])
    (Peer.header_length c1 ((S.env i).clock c1.ticks) 113 22 0) rfl (by omega)
  rw [Nat.zero_add] at p1 p2
  rw [Peer.wp_send (by dsimp only [hdrSize]; rw [splice_length (by rw [ho]; decide), ho]; norm_num), wp_bind,
    Peer.wp_dumpOut (by
      dsimp only [hdrSize, msg21Size]
      rw [p2, ho]), wp_pure]
  refine ⟨rfl, B1.tick _, ⟨rfl, rfl, ?_⟩, rfl, _, p_win hS hi c1.ticks, p_mono hS hi (Nat.le_add_right _ _),
    p_mono hS hi (Nat.le_succ _), ?_⟩
  · exact le_trans (Nat.le_add_right _ _) (Nat.le_succ _)
  rw [List.take_of_length_le (by rw [p2, ho]), List.take_zero, List.nil_append, header_eq B1 hme (by rfl)] at p1
  exact p1

/-! ### The call -/

theorem peerNext_ok {clock : ℕ → UInt64} {mlock : Bool} {scratch : B32} {rnd : Rnd} {input out : Bytes} {Q : PRun → Prop}
    (hw : PGood (Peer.handler G clock log mlock scratch rnd input c.step) Q ⟨c, out⟩) :
    ∃ s, peerNext G clock log mlock scratch rnd c input out = .ok (0, pafter 0 s.ctx, s.out) ∧ Q s := by
  obtain ⟨r, s, h1, h2⟩ := peerNext_total G hw
  rcases h2 with h2 | ⟨rfl, h2⟩
  · exact h2.elim
  · exact ⟨s, h1, h2⟩

/-! ### The shares are threshold shares of one key -/

open Polynomial Spec in
theorem final_onPoly (hS : S.Honest lo) :
    ∃ f : (ZMod L)[X], f.degree < S.t.toNat ∧
      f.eval 0 = ((List.range S.n.toNat).map fun i => ((S.env i).rnd.coeff 0).val).sum ∧
      ∀ i < S.n.toNat, (finalShare S i).index.toNat = i + 1 ∧ OnPoly f (finalShare S i) := by
  have ht := hS.t_ge
  refine ⟨((List.range S.n.toNat).map fun j => Dkg.dealer S.t.toNat (S.env j).rnd.coeff).sum, ?_, ?_, ?_⟩
  · apply Props.degree_list_sum
    intro f hf
    rw [List.mem_map] at hf
    obtain ⟨j, _, rfl⟩ := hf
    exact Dkg.dealer_degree _ _
  · rw [Props.eval_list_sum, List.map_map]
    congr 1
    apply List.map_congr_left
    intro j _
    exact Dkg.dealer_zero _ (by omega) _
  · intro i hi
    refine ⟨idx_toNat hS hi, B32.canonical_ofZ _, ?_⟩
    unfold finalShare
    rw [B32.val_ofZ, Props.eval_list_sum, List.map_map]
    congr 1
    apply List.map_congr_left
    intro j _
    exact B32.val_ofZ _

end Verif.TpDkg.Honest
