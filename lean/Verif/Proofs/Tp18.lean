import Verif.Proofs.TpStep
import Verif.Proofs.Dkg

/-!
# Step 18 of the trusted party: the revealed keys
-/

set_option linter.unusedSectionVars false

namespace Verif.TpDkg

open H Wire Spec.Wire

theorem off18_succ (cs : List UInt16) (i : ℕ) : off18 cs (i + 1) = off18 cs i + size18 cs i := by
  simp [off18, List.range_succ]

theorem off18_le (cs : List UInt16) {i j : ℕ} (h : i ≤ j) : off18 cs i ≤ off18 cs j := by
  induction j with
  | zero => rw [Nat.le_zero.1 h]
  | succ j ih =>
    rcases Nat.lt_or_eq_of_le h with h | rfl
    · rw [off18_succ]; have := ih (by omega); omega
    · exact Nat.le_refl _

theorem cnt_cons (c : UInt16) (cs : List UInt16) (i : ℕ) :
    cnt (c :: cs) i = cnt cs i + (if c.toNat % 256 = i + 1 then 1 else 0) := by
  unfold cnt
  rw [List.countP_cons]
  simp

theorem range_map_getD {α : Type} {ctr : List α} {n : ℕ} (d : α) (h : ctr.length = n) :
    (List.range n).map (fun i => ctr.getD i d) = ctr := by
  apply List.ext_getElem
  · simp [h]
  · intro i h1 h2
    simp [List.getD_eq_getElem?_getD, h2]

theorem count18_eq {n : ℕ} : ∀ (cs : List UInt16) (ctr : List ℕ), ctr.length = n →
    (∀ c ∈ cs, 1 ≤ c.toNat % 256 ∧ c.toNat % 256 ≤ n) →
    count18 cs ctr = .ok ((List.range n).map fun i => ctr.getD i 0 + cnt cs i)
  | [], ctr, h, _ => by
    simp only [count18, cnt, List.countP_nil, Nat.add_zero]
    rw [range_map_getD 0 h]
  | c :: cs, ctr, h, hr => by
    obtain ⟨h1, h2⟩ := hr c (List.mem_cons_self)
    have hl : c.toNat % 256 - 1 < ctr.length := by omega
    rw [count18]
    rw [if_neg (by omega), ld_ok hl, C.ok_bind, st_ok hl, C.ok_bind,
      count18_eq cs _ (by rw [List.length_set, h]) (fun c hc => hr c (List.mem_cons_of_mem _ hc))]
    congr 1
    apply List.map_congr_left
    intro i hi
    rw [cnt_cons]
    rw [List.getD_eq_getElem?_getD, List.getD_eq_getElem?_getD]
    by_cases he : c.toNat % 256 = i + 1
    · rw [if_pos he]
      have : c.toNat % 256 - 1 = i := by omega
      subst this
      rw [List.getElem?_set_self hl, List.getElem?_eq_getElem hl]
      simp only [Option.getD_some]
      omega
    · rw [if_neg he, List.getElem?_set_ne (by omega)]
      simp

theorem countLoop_eq {n : ℕ} : ∀ (cs : List UInt16) (ctr : List UInt8), ctr.length = n →
    (∀ c ∈ cs, 1 ≤ c.toNat % 256 ∧ c.toNat % 256 ≤ n) →
    countLoop cs ctr = .ok ((List.range n).map fun i => ctr.getD i 0 + UInt8.ofNat (cnt cs i))
  | [], ctr, h, _ => by
    simp only [countLoop, cnt, List.countP_nil]
    rw [show (fun i => ctr.getD i 0 + UInt8.ofNat 0) = fun i => ctr.getD i 0 from funext fun i => by simp,
      range_map_getD 0 h]
  | c :: cs, ctr, h, hr => by
    obtain ⟨h1, h2⟩ := hr c (List.mem_cons_self)
    have hl : c.toNat % 256 - 1 < ctr.length := by omega
    rw [countLoop]
    rw [if_neg (by omega), ld_ok hl, C.ok_bind, st_ok hl, C.ok_bind,
      countLoop_eq cs _ (by rw [List.length_set, h]) (fun c hc => hr c (List.mem_cons_of_mem _ hc))]
    congr 1
    apply List.map_congr_left
    intro i hi
    rw [cnt_cons]
    rw [List.getD_eq_getElem?_getD, List.getD_eq_getElem?_getD]
    by_cases he : c.toNat % 256 = i + 1
    · rw [if_pos he]
      have : c.toNat % 256 - 1 = i := by omega
      subst this
      rw [List.getElem?_set_self hl, List.getElem?_eq_getElem hl]
      simp only [Option.getD_some]
      rw [UInt8.ofNat_add, UInt8.add_assoc]
      congr 1
      exact UInt8.add_comm _ _
    · rw [if_neg he, List.getElem?_set_ne (by omega)]
      simp

theorem pair_toNat (i x : UInt8) : (pair i x).toNat = i.toNat * 256 + x.toNat := by
  unfold pair
  rw [UInt16.toNat_ofNat']
  have := UInt8.toNat_lt i
  have := UInt8.toNat_lt x
  omega

theorem pair_mod (i x : UInt8) : (pair i x).toNat % 256 = x.toNat := by
  rw [pair_toNat]
  have := UInt8.toNat_lt x
  omega

theorem pair_div (i x : UInt8) : (pair i x).toNat / 256 = i.toNat := by
  rw [pair_toNat]
  have := UInt8.toNat_lt x
  omega

theorem pair_inj {i x j y : UInt8} (h : pair i x = pair j y) : i = j ∧ x = y := by
  have h1 := pair_div i x
  have h2 := pair_mod i x
  rw [h] at h1 h2
  rw [pair_div] at h1
  rw [pair_mod] at h2
  exact ⟨UInt8.toNat_inj.1 h1.symm, UInt8.toNat_inj.1 h2.symm⟩

/-- A list of complaints about peers of a group of `n`. -/
def InRange (n : ℕ) (cs : List UInt16) : Prop :=
  ∀ p ∈ cs, ∃ i x : UInt8, (1 ≤ i.toNat ∧ i.toNat ≤ n) ∧ (1 ≤ x.toNat ∧ x.toNat ≤ n) ∧ p = pair i x

/-- There are at most `n` complaints about one peer. -/
theorem cnt_le {n : ℕ} {cs : List UInt16} (hd : cs.Nodup) (hr : InRange n cs) (i : ℕ) : cnt cs i ≤ n := by
  unfold cnt
  rw [List.countP_eq_length_filter]
  set l := cs.filter fun c => decide (c.toNat % 256 = i + 1) with hl
  have hln : l.Nodup := hd.filter _
  have hm : (l.map fun c => c.toNat / 256).Nodup := by
    refine List.Nodup.map_on ?_ hln
    intro a ha b hb hab
    rw [hl, List.mem_filter] at ha hb
    have h1 := of_decide_eq_true ha.2
    have h2 := of_decide_eq_true hb.2
    apply UInt16.toNat_inj.1
    omega
  have hs : (l.map fun c => c.toNat / 256).toFinset ⊆ Finset.Icc 1 n := by
    intro a ha
    rw [List.mem_toFinset, List.mem_map] at ha
    obtain ⟨c, hc, rfl⟩ := ha
    rw [hl, List.mem_filter] at hc
    obtain ⟨j, x, hj, _, rfl⟩ := hr c hc.1
    rw [pair_div, Finset.mem_Icc]
    exact hj
  have := Finset.card_le_card hs
  rw [List.toFinset_card_of_nodup hm, List.length_map] at this
  simpa using this

theorem InRange.mod {n : ℕ} {cs : List UInt16} (hr : InRange n cs) : ∀ c ∈ cs, 1 ≤ c.toNat % 256 ∧ c.toNat % 256 ≤ n := by
  intro c hc
  obtain ⟨i, x, _, hx, rfl⟩ := hr c hc
  rw [pair_mod]
  exact hx

/-- Sizes of the answers at step 7. -/
theorem tpInputSizes_7 {c : TP} {n : ℕ} (hs : c.step = 7) (hn : c.n.toNat = n) (h1 : 1 ≤ n) (h2 : n ≤ 128)
    (hl : c.complaintsLen.toNat ≤ c.complaints.length) (hd : c.known.Nodup) (hr : InRange n c.known) :
    tpInputSizes c = .ok (0, (List.range n).map (size18 c.known)) := by
  unfold tpInputSizes
  rw [hs, hn]
  dsimp only
  rw [if_neg (by omega), rd_ok (by omega), C.ok_bind, List.drop_zero, ← TP.known, countLoop_eq (n := n) _ _ (by simp) hr.mod,
    C.ok_bind, List.map_map]
  refine congrArg (fun l => C.ok ((0 : Int), l)) ?_
  apply List.map_congr_left
  intro i hi
  have hc := cnt_le hd hr i
  have : (List.replicate n (0 : UInt8)).getD i 0 + UInt8.ofNat (cnt c.known i) = UInt8.ofNat (cnt c.known i) := by
    rw [List.getD_eq_getElem?_getD, List.getElem?_replicate]
    split <;> simp
  simp only [Function.comp, this]
  have h3 : (UInt8.ofNat (cnt c.known i)).toNat = cnt c.known i := by
    rw [UInt8.toNat_ofNat', Nat.mod_eq_of_lt (by omega)]
  unfold size18
  rw [h3]
  congr 1
  rw [gt_iff_lt, UInt8.lt_iff_toNat_lt, h3]
  rfl

/-! ### One revealed key -/

variable [Signing] [Hashes] [NoiseCrypto] [Mac] (G : Type) [Ristretto G]

/-- The result of checking the key revealed by peer `i` for the peer with index `x`, if the stored message is valid. -/
def Opened (scratch : B32) (c : TP) (i : ℕ) (x : UInt8) (key : B32) (e : Int) : Prop :=
  ((Mac.auth key (boxOf c i x)).toList ≠ macOf c i x ∧ e = 3) ∨
  ((Mac.auth key (boxOf c i x)).toList = macOf c i x ∧
    ((NoiseCrypto.aeadDec key 0 [] (boxOf c i x) = none ∧ e = 4) ∨
    ∃ plain, NoiseCrypto.aeadDec key 0 [] (boxOf c i x) = some plain ∧
      ((plain.getD 0 0 ≠ x ∧ e = 5) ∨
      (plain.getD 0 0 = x ∧ ∃ r, Dkg.verifyCommitment G scratch c.t x (idx i) (commitsOf c i)
        ⟨x, toB32 (slice plain 1 32)⟩ = .ok r ∧ e = 128 + r))))

/-- The result of checking the key revealed by peer `i` for the peer with index `x`. -/
def Judged (clock : ℕ → UInt64) (scratch : B32) (c : TP) (i : ℕ) (x : UInt8) (key : B32) (e : Int) : Prop :=
  ∃ j r last k, c.ticks ≤ j ∧
    recvMsg (clock j) c.encShares (m8Off c i x) 256 8 (idx i) x (pkOf c i) c.sid c.eps
      (htonll (u64 (slice c.encShares (m8Off c i x + 71) 8))) = .ok (r, last, k) ∧
    ((r ≠ 0 ∧ e = 16 + r) ∨ (r = 0 ∧ Opened G scratch c i x key e))

theorem verifyCommitment_total {scratch : B32} {t self i : UInt8} {cs : List B32} {share : Share} (ht : 1 ≤ t.toNat)
    (hl : t.toNat ≤ cs.length) (hs : self ≠ 0) :
    ∃ r, Dkg.verifyCommitment G scratch t self i cs share = .ok r := by
  classical
  by_cases hi : i = self
  · exact ⟨0, by unfold Dkg.verifyCommitment; rw [if_pos hi]⟩
  · exact ⟨_, Dkg.verifyCommitment_eq G scratch t self i cs share ht hl hs hi⟩

omit [Signing] [Hashes] [NoiseCrypto] [Mac] in
theorem idx_toNat {i : ℕ} (h : i < 255) : (idx i).toNat = i + 1 := by
  unfold idx
  rw [UInt8.toNat_ofNat', Nat.mod_eq_of_lt (by omega)]

theorem wp_tp18Share {clock : ℕ → UInt64} {log : Bool} {scratch : B32} {c0 : TP} {s : Run} {n i : ℕ} {x : UInt8} {key : B32}
    {E : Int → Run → Prop} {Q : Unit → Run → Prop} {P : Cheater → Prop} (wf : WF c0) (hn : c0.n.toNat = n)
    (ht : 1 ≤ c0.t.toNat) (hk : Keep P c0 s.ctx) (hrest : rest s.ctx = rest c0) (hi : i < n)
    (hx : 1 ≤ x.toNat ∧ x.toNat ≤ n)
    (hE : ∀ k, Full s.ctx → E 4 { s with ctx := { s.ctx with ticks := s.ctx.ticks + k } })
    (hQ : ∀ e k inv, Judged G clock scratch c0 i x key e → s.ctx.cheaterLen < s.ctx.cheaterMax →
      Q () { s with ctx := report { s.ctx with ticks := s.ctx.ticks + k } ⟨18, e, idx i, x, inv⟩ }) :
    Wp (tp18Share G clock log scratch (idx i) x (m8Off c0 i x) key) False E Q s := by
  have hn128 : n ≤ 128 := hn ▸ wf.n_le
  have wf' := wf.keep hk
  simp only [rest, Prod.mk.injEq] at hrest
  obtain ⟨_, hr1, hr2, hr3, _⟩ := hrest
  have hidx : (idx i).toNat = i + 1 := idx_toNat (by omega)
  have hes : c0.encShares.length = n * n * 256 := by rw [wf.encShares, hn]
  have hm : m8Off c0 i x + 256 ≤ c0.encShares.length := by
    unfold m8Off
    rw [hes, hn]
    have := Nat.mul_le_mul_right 256 (mul_add_lt hi (show x.toNat - 1 < n by omega))
    omega
  have hil : i < s.ctx.sigPks.length := by rw [hr1, wf.sigPks, hn]; exact hi
  unfold tp18Share
  rw [wp_bind, wp_get]
  dsimp only [msg8Size, hdrSize]
  rw [hr3, wp_bind, wp_dump hm, wp_bind, wp_lift_ok (rd_ok (by omega)), wp_bind, hidx, Nat.add_sub_cancel,
    wp_sigPkOf hil, wp_bind]
  obtain ⟨⟨r, last, k⟩, hrecv⟩ := recvMsg_safe (now := clock s.ctx.ticks) (msgno := 8) (frm := idx i) (rcp := x)
    (pk := s.ctx.sigPks[i]) (sid := s.ctx.sid) (eps := s.ctx.eps) (buf := c0.encShares) (off := m8Off c0 i x)
    (len := 256) (last := htonll (u64 ((c0.encShares.drop (m8Off c0 i x + 71)).take 8))) hm (by omega)
  rw [wp_lift_ok hrecv]
  dsimp only
  rw [wp_bind, wp_setCtx, wp_ite]
  rw [pkOf_eq hr1 hil, hk.sid, hk.eps] at hrecv
  refine ⟨fun h0 => ?_, fun h0 => ?_⟩
  · exact wp_addCheater wf'.cheaters (fun hf => hE k hf) fun hf inv =>
      hQ _ k inv ⟨s.ctx.ticks, r, last, k, hk.ticks, hrecv, .inl ⟨h0, rfl⟩⟩ hf
  · have h0' : r = 0 := not_not.1 h0
    subst h0'
    have fin : ∀ e, Opened G scratch c0 i x key e → Judged G clock scratch c0 i x key e :=
      fun e he => ⟨s.ctx.ticks, 0, last, k, hk.ticks, hrecv, .inr ⟨rfl, he⟩⟩
    rw [wp_bind, wp_lift_ok (rd_ok (by omega)), wp_bind, wp_lift_ok (rd_ok (by omega)), wp_ite]
    refine ⟨fun hmac => ?_, fun hmac => ?_⟩
    · exact wp_addCheater wf'.cheaters (fun hf => hE k hf) fun hf inv => hQ _ k inv (fin _ (.inl ⟨hmac, rfl⟩)) hf
    · have hmac' : (Mac.auth key (boxOf c0 i x)).toList = macOf c0 i x := not_not.1 hmac
      cases hdec : NoiseCrypto.aeadDec key 0 [] (boxOf c0 i x) with
      | none =>
        have h2 := hdec
        unfold boxOf slice at h2
        rw [h2]
        exact wp_addCheater wf'.cheaters (fun hf => hE k hf) fun hf inv =>
          hQ _ k inv (fin _ (.inr ⟨hmac', .inl ⟨hdec, rfl⟩⟩)) hf
      | some plain =>
        have h2 := hdec
        unfold boxOf slice at h2
        rw [h2]
        dsimp only
        have hpl : plain.length = 33 := by
          have h3 := NoiseCrypto.dec_length _ _ _ _ _ hdec
          have h4 : (boxOf c0 i x).length = 49 := slice_length (by omega)
          omega
        have hp0 : plain.getD 0 0 = plain[0] := by
          rw [List.getD_eq_getElem?_getD, List.getElem?_eq_getElem (by omega)]; rfl
        rw [wp_bind, wp_lift_ok (ld_ok (by omega)), wp_bind, wp_lift_ok (rd_ok (by omega)), wp_ite]
        refine ⟨fun hne => ?_, fun heq => ?_⟩
        · refine wp_addCheaterIx wf'.cheaters (fun hf => hE k hf) fun hf inv _ => ?_
          exact hQ _ k inv (fin _ (.inr ⟨hmac', .inr ⟨plain, hdec, .inl ⟨by rw [hp0]; exact hne, rfl⟩⟩⟩)) hf
        · have heq' : plain[0] = x := not_not.1 heq
          have hx0 : x ≠ 0 := by rintro rfl; simp at hx
          have hcm : i * c0.t.toNat + c0.t.toNat ≤ c0.commitments.length := by
            rw [wf.commitments, hn]
            have := Nat.mul_le_mul_right c0.t.toNat (Nat.succ_le_of_lt hi)
            have h3 : (i + 1) * c0.t.toNat = i * c0.t.toNat + c0.t.toNat := by ring
            simp only [Nat.succ_eq_add_one] at this
            omega
          obtain ⟨r, hr⟩ := verifyCommitment_total G (scratch := scratch) (t := c0.t) (self := x) (i := idx i)
            (cs := commitsOf c0 i) (share := ⟨x, toB32 (slice plain 1 32)⟩) ht
            (by unfold commitsOf; rw [List.length_drop]; omega) hx0
          have hfin := fin _ (.inr ⟨hmac', .inr ⟨plain, hdec, .inr ⟨by rw [hp0]; exact heq', r, hr, rfl⟩⟩⟩)
          unfold commitsOf slice at hr
          have main : ∀ Q', (Q' = Q) → Wp (do
              let ret ← H.lift (Dkg.verifyCommitment G scratch s.ctx.t plain[0] (idx i)
                (s.ctx.commitments.drop (i * s.ctx.t.toNat)) ⟨plain[0], toB32 ((plain.drop 1).take 32)⟩)
              addCheater 18 (128 + ret) (idx i) x 4) False E Q'
              { s with ctx := { s.ctx with ticks := s.ctx.ticks + k } } := by
            rintro Q' rfl
            rw [hk.t, hr2, heq', wp_bind, wp_lift_ok hr]
            exact wp_addCheater wf'.cheaters (fun hf => hE k hf) fun hf inv => hQ _ k inv hfin hf
          cases log with
          | false =>
            simp only [Bool.false_eq_true, if_false]
            exact main Q rfl
          | true =>
            simp only [if_true]
            rw [wp_bind, wp_lift_ok (rd_ok (by rw [hk.t, hr2]; exact hcm))]
            exact main Q rfl

/-! ### Answered complaints -/

/-- The entries `D` are replaced by 0xffff. -/
def mark (D : List UInt16) (p : UInt16) : UInt16 := if p ∈ D then 0xffff else p

section Mark

omit [Signing] [Hashes] [NoiseCrypto] [Mac]

theorem mem_mark {D cs : List UInt16} {p : UInt16} (hp : p ≠ 0xffff) : p ∈ cs.map (mark D) ↔ p ∈ cs ∧ p ∉ D := by
  rw [List.mem_map]
  constructor
  · rintro ⟨q, hq, h⟩
    unfold mark at h
    split at h
    · exact absurd h.symm hp
    · subst h; exact ⟨hq, ‹_›⟩
  · rintro ⟨h1, h2⟩
    exact ⟨p, h1, by unfold mark; rw [if_neg h2]⟩

theorem map_mark_eq {D cs : List UInt16} {p : UInt16} (h : p ∉ cs ∨ p ∈ D) :
    cs.map (mark (D ++ [p])) = cs.map (mark D) := by
  apply List.map_congr_left
  intro q hq
  unfold mark
  congr 1
  rw [List.mem_append, List.mem_singleton, eq_iff_iff]
  constructor
  · rintro (h1 | rfl)
    · exact h1
    · exact h.resolve_left fun h => h hq
  · exact .inl

theorem mark_set {D : List UInt16} {p : UInt16} (hp : p ≠ 0xffff) (hD : p ∉ D) : ∀ {cs : List UInt16}, cs.Nodup → p ∈ cs →
    (cs.map (mark D)).set ((cs.map (mark D)).idxOf p) 0xffff = cs.map (mark (D ++ [p]))
  | [], _, h => by cases h
  | q :: cs, hn, h => by
    rw [List.nodup_cons] at hn
    rw [List.map_cons, List.map_cons]
    by_cases hq : q = p
    · subst hq
      have h1 : mark D q = q := by unfold mark; rw [if_neg hD]
      have h2 : mark (D ++ [q]) q = 0xffff := by unfold mark; rw [if_pos (by simp)]
      rw [h1, List.idxOf_cons_self, List.set_cons_zero, h2, map_mark_eq (.inl hn.1)]
    · have h1 : mark D q ≠ p := by
        unfold mark
        split
        · exact fun h => hp h.symm
        · exact hq
      have h2 : mark (D ++ [p]) q = mark D q := by
        unfold mark
        congr 1
        rw [List.mem_append, List.mem_singleton, eq_iff_iff]
        exact ⟨fun h => h.resolve_right hq, .inl⟩
      have h3 : p ∈ cs := by
        rcases List.mem_cons.1 h with h | h
        · exact absurd h.symm hq
        · exact h
      rw [List.idxOf_cons_ne _ h1, List.set_cons_succ, h2, mark_set hp hD hn.2 h3]

end Mark

omit [Signing] [Hashes] [NoiseCrypto] [Mac] in
theorem answers_succ (input : Bytes) (cs : List UInt16) (i k : ℕ) :
    answers input cs i (k + 1) = answers input cs i k ++ [pair (keyFor input cs i k) (idx i)] := by
  simp [answers, List.range_succ]

/-- Report `e` about key `k` of the answer of peer `i`. -/
def KeyReport (clock : ℕ → UInt64) (scratch : B32) (c : TP) (input : Bytes) (i k : ℕ) (e : Int) : Prop :=
  let p := pair (keyFor input c.known i k) (idx i)
  (e = 6 ∧ (p ∉ c.known ∨ p ∈ answers input c.known i k)) ∨
  (p ∈ c.known ∧ p ∉ answers input c.known i k ∧
    Judged G clock scratch c i (keyFor input c.known i k) (keyOf input c.known i k) e)

/-- The reports that step 18 can write. -/
def Origin (clock : ℕ → UInt64) (scratch : B32) (c : TP) (input : Bytes) (x : Cheater) : Prop :=
  x.step = 18 ∧
  ((∃ i < c.n.toNat, 0 < cnt c.known i ∧ x.peer = idx i ∧ x.other = 0xfe ∧
      ∃ r ≠ 0, Received clock input c (exp18 c i) r ∧ x.error = 32 + r) ∨
  (∃ i < c.n.toNat, 0 < cnt c.known i ∧ Received clock input c (exp18 c i) 0 ∧ ∃ k < cnt c.known i,
      x.peer = idx i ∧ x.other = keyFor input c.known i k ∧ KeyReport G clock scratch c input i k x.error) ∨
  (x.error = 7 ∧ pair x.peer x.other ∈ c.known ∧ ∃ i < c.n.toNat, x.other = idx i ∧
    ((∃ r ≠ 0, Received clock input c (exp18 c i) r) ∨
      pair x.peer x.other ∉ answers input c.known i (cnt c.known i))))

/-- The answer of peer `i` was processed. -/
def Processed (clock : ℕ → UInt64) (scratch : B32) (c : TP) (input : Bytes) (i : ℕ) (log : List Cheater) : Prop :=
  ∀ k < cnt c.known i, ∃ x ∈ log, x.step = 18 ∧ x.peer = idx i ∧ x.other = keyFor input c.known i k ∧
    KeyReport G clock scratch c input i k x.error

/-- State after the answers of the peers below `j`; those of the peers in `A` were accepted. -/
structure Inv18 (clock : ℕ → UInt64) (scratch : B32) (s0 : Run) (input : Bytes) (j : ℕ) (A : List ℕ) (D : List UInt16)
    (s : Run) : Prop where
  keep : KeepRun (Origin G clock scratch s0.ctx input) s0 s
  same : rest s.ctx = rest s0.ctx
  loc : s.loc = s0.ctx.known.map (mark D)
  acc : ∀ a ∈ A, a < j ∧ 0 < cnt s0.ctx.known a ∧ Received clock input s0.ctx (exp18 s0.ctx a) 0 ∧
    Processed G clock scratch s0.ctx input a s.ctx.log
  rej : ∀ i < j, 0 < cnt s0.ctx.known i → i ∉ A → ∃ r ≠ 0, Received clock input s0.ctx (exp18 s0.ctx i) r ∧
    ∃ x, (⟨18, 32 + r, idx i, 0xfe, x⟩ : Cheater) ∈ s.ctx.log

omit [Hashes] in
theorem Processed.mono {clock : ℕ → UInt64} {scratch : B32} {c : TP} {input : Bytes} {i : ℕ} {log log' : List Cheater}
    (h : Processed G clock scratch c input i log) (hl : ∀ x ∈ log, x ∈ log') :
    Processed G clock scratch c input i log' := by
  intro k hk
  obtain ⟨x, hx, h2⟩ := h k hk
  exact ⟨x, hl x hx, h2⟩

omit [Hashes] in
/-- Changes that keep the reports. -/
theorem Inv18.step {clock : ℕ → UInt64} {scratch : B32} {s0 s s' : Run} {input : Bytes} {j : ℕ} {A : List ℕ}
    {D D' : List UInt16} (h : Inv18 G clock scratch s0 input j A D s)
    (hk : KeepRun (Origin G clock scratch s0.ctx input) s s') (hr : rest s'.ctx = rest s.ctx)
    (hl : s'.loc = s0.ctx.known.map (mark D')) : Inv18 G clock scratch s0 input j A D' s' := by
  have hsub : ∀ x ∈ s.ctx.log, x ∈ s'.ctx.log := by
    obtain ⟨new, _, _, h3⟩ := hk.1.grow
    intro x hx
    rw [h3]
    exact List.mem_append_left _ hx
  refine ⟨(keepRun_frame _).trans _ _ _ h.keep hk, hr.trans h.same, hl, ?_, ?_⟩
  · intro a ha
    obtain ⟨h1, h2, h3, h4⟩ := h.acc a ha
    exact ⟨h1, h2, h3, h4.mono G hsub⟩
  · intro i hi hc hA
    obtain ⟨r, h1, h2, x, h3⟩ := h.rej i hi hc hA
    exact ⟨r, h1, h2, x, hsub _ h3⟩

omit [Hashes] in
theorem keep_ticks {P : Cheater → Prop} (c : TP) (k : ℕ) : Keep P c { c with ticks := c.ticks + k } :=
  { Keep.refl c with ticks := Nat.le_add_right _ _ }

/-- The first `k` keys of the answer of peer `i` were processed. -/
def ProcessedTo (clock : ℕ → UInt64) (scratch : B32) (c : TP) (input : Bytes) (i k : ℕ) (log : List Cheater) : Prop :=
  ∀ m < k, ∃ x ∈ log, x.step = 18 ∧ x.peer = idx i ∧ x.other = keyFor input c.known i m ∧
    KeyReport G clock scratch c input i m x.error

theorem wp_tp18Key {clock : ℕ → UInt64} {log : Bool} {scratch : B32} {s0 s : Run} {input : Bytes} {n j k : ℕ} {A : List ℕ}
    {D : List UInt16} (wf : WF s0.ctx) (hn : s0.ctx.n.toNat = n) (ht : 1 ≤ s0.ctx.t.toNat)
    (hd : s0.ctx.known.Nodup) (hr : InRange n s0.ctx.known) (hj : j < n)
    (hres : Received clock input s0.ctx (exp18 s0.ctx j) 0) (hk : k < cnt s0.ctx.known j)
    (hb : off18 s0.ctx.known j + (111 + 33 * cnt s0.ctx.known j) ≤ input.length)
    (hD : ∀ p ∈ D, p.toNat % 256 ≠ j + 1)
    (hI : Inv18 G clock scratch s0 input j A (D ++ answers input s0.ctx.known j k) s)
    (hP : ProcessedTo G clock scratch s0.ctx input j k s.ctx.log) :
    Wp (tp18Key G clock log scratch input (off18 s0.ctx.known j) k) False
      (fun e s' => e = 4 ∧ Full s'.ctx ∧ KeepRun (Origin G clock scratch s0.ctx input) s0 s')
      (fun _ s' => Inv18 G clock scratch s0 input j A (D ++ answers input s0.ctx.known j (k + 1)) s' ∧
        ProcessedTo G clock scratch s0.ctx input j (k + 1) s'.ctx.log ∧ s'.r = s.r ∧ s'.ctx.lastTs = s.ctx.lastTs) s := by
  have hn128 : n ≤ 128 := hn ▸ wf.n_le
  have wf' := wf.keep hI.keep.1
  obtain ⟨off, hoff⟩ : ∃ off, off18 s0.ctx.known j = off := ⟨_, rfl⟩
  obtain ⟨m, hm⟩ : ∃ m, cnt s0.ctx.known j = m := ⟨_, rfl⟩
  rw [hoff, hm] at hb
  rw [hm] at hk
  have hb1 : off + 111 + 33 * k < input.length := by omega
  have hb2 : off + 69 < input.length := by omega
  have hb3 : off + 111 + 33 * k + 1 + 32 ≤ input.length := by omega
  have hx : input[off + 111 + 33 * k] = keyFor input s0.ctx.known j k := by
    unfold keyFor
    rw [hoff, List.getD_eq_getElem?_getD, List.getElem?_eq_getElem hb1]; rfl
  have hfrm : input[off + 69] = idx j := by
    obtain ⟨_, _, _, _, h⟩ := hres
    have h2 := recvMsg_from h
    have h3 : ld input (off + 69) = .ok (idx j) := by rw [← hoff]; exact h2
    rw [ld_ok hb2] at h3
    exact C.ok.inj h3
  obtain ⟨x, hxe⟩ : ∃ x, keyFor input s0.ctx.known j k = x := ⟨_, rfl⟩
  have hkey : toB32 ((input.drop (off + 111 + 33 * k + 1)).take 32) = keyOf input s0.ctx.known j k := by
    unfold keyOf slice; rw [hoff]
  have hidx : (idx j).toNat = j + 1 := idx_toNat (by omega)
  have hp : pair x (idx j) ≠ 0xffff := by
    intro h
    have h1 := pair_mod x (idx j)
    rw [h, hidx] at h1
    have h2 : (0xffff : UInt16).toNat % 256 = 255 := by decide
    omega
  have hpD : pair x (idx j) ∉ D := fun h => hD _ h (by rw [pair_mod, hidx])
  -- a report about this key
  have done : ∀ (s1 : Run) (q : ℕ) (e inv : Int), s1.r = s.r → s1.ctx = s.ctx → s1.out = s.out →
      s1.loc = s0.ctx.known.map (mark (D ++ answers input s0.ctx.known j (k + 1))) →
      s.ctx.cheaterLen < s.ctx.cheaterMax → KeyReport G clock scratch s0.ctx input j k e →
      Inv18 G clock scratch s0 input j A (D ++ answers input s0.ctx.known j (k + 1))
        { s1 with ctx := report { s1.ctx with ticks := s1.ctx.ticks + q } ⟨18, e, idx j, x, inv⟩ } ∧
      ProcessedTo G clock scratch s0.ctx input j (k + 1)
        (report { s1.ctx with ticks := s1.ctx.ticks + q } ⟨18, e, idx j, x, inv⟩).log ∧ s1.r = s.r ∧
      (report { s1.ctx with ticks := s1.ctx.ticks + q } ⟨18, e, idx j, x, inv⟩).lastTs = s.ctx.lastTs := by
    intro s1 q e inv h1 h2 h3 h4 h5 h6
    have h7 : s.ctx.cheaterLen < s.ctx.cheaters.length := Nat.lt_of_lt_of_le h5 wf'.cheaters
    have hor : Origin G clock scratch s0.ctx input ⟨18, e, idx j, x, inv⟩ :=
      ⟨rfl, .inr (.inl ⟨j, hn ▸ hj, by omega, hres, k, by omega, rfl, hxe.symm, h6⟩)⟩
    refine ⟨hI.step G ⟨?_, by rw [h3]⟩ (by rw [h2]; rfl) h4, ?_, h1, by rw [h2]; rfl⟩
    · rw [h2]
      exact (keep_ticks s.ctx q).trans (keep_report hor h5 h7)
    · rw [h2, log_report (c := { s.ctx with ticks := s.ctx.ticks + q }) h7]
      intro m' hm'
      rcases Nat.lt_succ_iff_lt_or_eq.1 hm' with hm' | rfl
      · obtain ⟨y, hy, hy2⟩ := hP m' hm'
        exact ⟨y, List.mem_append_left _ hy, hy2⟩
      · exact ⟨_, List.mem_append_right _ (List.mem_singleton.2 rfl), rfl, rfl, hxe.symm, h6⟩
  unfold tp18Key
  dsimp only [hdrSize]
  rw [hoff, wp_bind, wp_lift_ok (ld_ok hb1), wp_bind, wp_lift_ok (ld_ok hb2), wp_bind, wp_get, hx, hfrm, hxe, hI.loc,
    wp_ite]
  refine ⟨fun hmem => ?_, fun hmem => ?_⟩
  · rw [mem_mark hp] at hmem
    obtain ⟨hmem, hmD⟩ := hmem
    obtain ⟨i', x', hi', hx', hpe⟩ := hr _ hmem
    obtain ⟨rfl, rfl⟩ := pair_inj hpe
    have hx0 : x ≠ 0 := by rintro rfl; simp at hi'
    have hj0 : idx j ≠ 0 := by intro h; rw [h] at hidx; simp at hidx
    rw [wp_bind, wp_modify, wp_ite]
    refine ⟨fun h => absurd h (not_or.2 ⟨hj0, hx0⟩), fun _ => ?_⟩
    rw [wp_bind, wp_lift_ok (rd_ok hb3), hkey]
    have hset : (s0.ctx.known.map (mark (D ++ answers input s0.ctx.known j k))).set
        ((s0.ctx.known.map (mark (D ++ answers input s0.ctx.known j k))).idxOf (pair x (idx j))) 0xffff =
        s0.ctx.known.map (mark (D ++ answers input s0.ctx.known j (k + 1))) := by
      rw [mark_set hp hmD hd hmem, answers_succ, hxe, List.append_assoc]
    rw [hI.loc, hset]
    have hm8 : ((idx j).toNat - 1) * s.ctx.n.toNat + (x.toNat - 1) = j * s0.ctx.n.toNat + (x.toNat - 1) := by
      rw [hidx, hI.keep.1.n, Nat.add_sub_cancel]
    show Wp (tp18Share G clock log scratch (idx j) x ((((idx j).toNat - 1) * s.ctx.n.toNat + (x.toNat - 1)) * 256) _) _ _ _ _
    rw [hm8]
    have hmD' : pair x (idx j) ∉ answers input s0.ctx.known j k := fun h => hmD (List.mem_append_right _ h)
    refine wp_tp18Share G (c0 := s0.ctx) (n := n) wf hn ht hI.keep.1 hI.same hj hi' ?_ ?_
    · intro q hf
      exact ⟨rfl, hf, hI.keep.1.trans (keep_ticks _ _), hI.keep.2⟩
    · intro e q inv hjud hroom
      refine done { s with loc := s0.ctx.known.map (mark (D ++ answers input s0.ctx.known j (k + 1))) } q e inv rfl rfl rfl
        rfl hroom ?_
      unfold KeyReport
      dsimp only
      rw [hxe]
      exact .inr ⟨hmem, hmD', hjud⟩
  · rw [mem_mark hp, not_and, not_not] at hmem
    have hmem' : pair x (idx j) ∉ s0.ctx.known ∨ pair x (idx j) ∈ answers input s0.ctx.known j k := by
      by_cases h : pair x (idx j) ∈ s0.ctx.known
      · rcases List.mem_append.1 (hmem h) with h | h
        · exact absurd h hpD
        · exact .inr h
      · exact .inl h
    refine wp_addCheater wf'.cheaters (fun hf => ⟨rfl, hf, hI.keep⟩) fun hroom inv => ?_
    refine done s 0 6 inv rfl rfl rfl ?_ hroom ?_
    · rw [hI.loc, answers_succ, hxe, ← List.append_assoc]
      refine (map_mark_eq ?_).symm
      rcases hmem' with h | h
      · exact .inl h
      · exact .inr (List.mem_append_right _ h)
    · unfold KeyReport
      dsimp only
      rw [hxe]
      exact .inl ⟨rfl, hmem'⟩

/-- The complaints answered by the peers in `A`. -/
def answeredBy (input : Bytes) (cs : List UInt16) (A : List ℕ) : List UInt16 :=
  A.flatMap fun a => answers input cs a (cnt cs a)

theorem wp_tp18Body {clock : ℕ → UInt64} {log : Bool} {scratch : B32} {s0 s : Run} {input : Bytes} {n j : ℕ} {A : List ℕ}
    {ctr : List ℕ} (wf : WF s0.ctx) (hn : s0.ctx.n.toNat = n) (ht : 1 ≤ s0.ctx.t.toNat)
    (hd : s0.ctx.known.Nodup) (hr : InRange n s0.ctx.known) (hj : j < n)
    (hctr : ctr = (List.range n).map (cnt s0.ctx.known)) (hb : input.length = off18 s0.ctx.known n)
    (hI : Inv18 G clock scratch s0 input j A (answeredBy input s0.ctx.known A) s) (hro : s.r = off18 s0.ctx.known j)
    (hts : ∀ i, j ≤ i → s.ctx.lastTs.getD i 0 = s0.ctx.lastTs.getD i 0) :
    Wp (tp18Body G clock log scratch input ctr j) False
      (fun e s' => e = 4 ∧ Full s'.ctx ∧ KeepRun (Origin G clock scratch s0.ctx input) s0 s')
      (fun _ s' => (∃ A', Inv18 G clock scratch s0 input (j + 1) A' (answeredBy input s0.ctx.known A') s') ∧
        s'.r = off18 s0.ctx.known (j + 1) ∧ ∀ i, j + 1 ≤ i → s'.ctx.lastTs.getD i 0 = s0.ctx.lastTs.getD i 0) s := by
  have hn128 : n ≤ 128 := hn ▸ wf.n_le
  have wf' := wf.keep hI.keep.1
  have hn' : s.ctx.n.toNat = n := by rw [hI.keep.1.n, hn]
  have hjc : j < ctr.length := by rw [hctr]; simpa using hj
  have hcj : ctr[j] = cnt s0.ctx.known j := by simp [hctr]
  have hle := off18_le s0.ctx.known (show j + 1 ≤ n from hj)
  rw [off18_succ] at hle
  unfold tp18Body
  rw [wp_bind, wp_lift_ok (ld_ok hjc), hcj, wp_ite]
  refine ⟨fun h0 => ?_, fun h0 => ?_⟩
  · rw [wp_pure]
    refine ⟨⟨A, hI.keep, hI.same, hI.loc, fun a ha => ?_, fun i hi hc hA => ?_⟩, ?_⟩
    · obtain ⟨h1, h2⟩ := hI.acc a ha
      exact ⟨by omega, h2⟩
    · rcases Nat.lt_succ_iff_lt_or_eq.1 hi with hi | rfl
      · exact hI.rej i hi hc hA
      · omega
    · exact ⟨by rw [off18_succ, hro, size18, if_neg (by omega), Nat.add_zero], fun i hi => hts i (by omega)⟩
  · have hpos : 0 < cnt s0.ctx.known j := by omega
    have hsz : size18 s0.ctx.known j = 111 + 33 * cnt s0.ctx.known j := by rw [size18, if_pos hpos]
    rw [hsz] at hle
    have hb' : off18 s0.ctx.known j + (111 + 33 * cnt s0.ctx.known j) ≤ input.length := by rw [hb]; exact hle
    have hpk : s.ctx.sigPks = s0.ctx.sigPks := congrArg (fun x => x.2.1) hI.same
    have hjl : j < s.ctx.sigPks.length := by rw [wf'.sigPks, hn']; exact hj
    have hjt : j < s.ctx.lastTs.length := by rw [wf'.lastTs, hn']; exact hj
    dsimp only [hdrSize]
    rw [wp_bind, wp_get, hro, wp_bind, wp_dump hb', wp_bind, wp_sigPkOf hjl, wp_bind]
    refine wp_tpRecv hb' (by omega) hjt fun r last q hrecv => ?_
    have hres : Received clock input s0.ctx (exp18 s0.ctx j) r := by
      refine ⟨s.ctx.ticks, last, q, hI.keep.1.ticks, ?_⟩
      have hl : s.ctx.lastTs[j] = s0.ctx.lastTs.getD j 0 := by
        rw [← hts j (Nat.le_refl j), List.getD_eq_getElem?_getD, List.getElem?_eq_getElem hjt]; rfl
      rw [pkOf_eq hpk hjl, hI.keep.1.sid, hI.keep.1.eps, hl] at hrecv
      exact hrecv
    have hts' : ∀ i, j + 1 ≤ i → (s.ctx.lastTs.set j last).getD i 0 = s0.ctx.lastTs.getD i 0 := by
      intro i hij
      rw [List.getD_eq_getElem?_getD, List.getElem?_set_ne (by omega), ← List.getD_eq_getElem?_getD]
      exact hts i (by omega)
    have hkr : KeepRun (Origin G clock scratch s0.ctx input) s { s with ctx := received s.ctx j last q } :=
      (keepRun_frame _).recv s _ _ (by simp) (Nat.le_add_right _ _)
    have hI1 : Inv18 G clock scratch s0 input j A (answeredBy input s0.ctx.known A)
        { s with ctx := received s.ctx j last q } := hI.step G hkr rfl hI.loc
    have hoff : off18 s0.ctx.known (j + 1) = off18 s0.ctx.known j + (111 + 33 * cnt s0.ctx.known j) := by
      rw [off18_succ, hsz]
    rw [wp_ite]
    refine ⟨fun hr0 => ?_, fun hr0 => ?_⟩
    · rw [wp_bind]
      refine wp_addCheater wf'.cheaters (fun hf => ⟨rfl, hf, hI1.keep⟩) fun hroom inv => ?_
      rw [wp_modify]
      have h7 : s.ctx.cheaterLen < s.ctx.cheaters.length := Nat.lt_of_lt_of_le hroom wf'.cheaters
      have hor : Origin G clock scratch s0.ctx input ⟨18, 32 + r, idx j, 0xfe, inv⟩ :=
        ⟨rfl, .inl ⟨j, hn ▸ hj, hpos, rfl, rfl, r, hr0, hres, rfl⟩⟩
      have hI2 := hI1.step (s' := { s with
          ctx := report (received s.ctx j last q) ⟨18, 32 + r, idx j, 0xfe, inv⟩
          r := s.r + (111 + 33 * cnt s0.ctx.known j) }) G
        ⟨keep_report (c := received s.ctx j last q) hor hroom h7, rfl⟩ rfl hI.loc
      refine ⟨⟨A, hI2.keep, hI2.same, hI2.loc, fun a ha => ?_, fun i hi hc hA => ?_⟩, ?_⟩
      · obtain ⟨h1, h2⟩ := hI2.acc a ha
        exact ⟨by omega, h2⟩
      · rcases Nat.lt_succ_iff_lt_or_eq.1 hi with hi | rfl
        · exact hI2.rej i hi hc hA
        · refine ⟨r, hr0, hres, inv, ?_⟩
          show _ ∈ (report (received s.ctx i last q) _).log
          rw [log_report (c := received s.ctx i last q) h7]
          exact List.mem_append_right _ (List.mem_singleton.2 rfl)
      · exact ⟨by rw [hoff, ← hro], hts'⟩
    · have hr0' : r = 0 := not_not.1 hr0
      subst hr0'
      rw [wp_bind]
      refine wp_forN (fun k s' => Inv18 G clock scratch s0 input j A
          (answeredBy input s0.ctx.known A ++ answers input s0.ctx.known j k) s' ∧
        ProcessedTo G clock scratch s0.ctx input j k s'.ctx.log ∧ s'.r = s.r ∧ s'.ctx.lastTs = s.ctx.lastTs.set j last)
        ?_ ?_ ?_
      · refine ⟨?_, fun _ h => absurd h (Nat.not_lt_zero _), rfl, rfl⟩
        simpa [answers] using hI1
      · rintro k s' hk ⟨hI3, hP3, hr3, hl3⟩
        have := wp_tp18Key G (log := log) (n := n) wf hn ht hd hr hj hres hk hb' (fun p hp => ?_) hI3 hP3
        · refine this.mono id (fun _ _ h => h) fun _ s4 h => ?_
          rwa [hr3, hl3] at h
        · obtain ⟨a, ha, hp⟩ := List.mem_flatMap.1 hp
          obtain ⟨m, _, rfl⟩ := List.mem_map.1 hp
          have := (hI3.acc a ha).1
          rw [pair_mod, idx_toNat (by omega)]
          omega
      · rintro s' ⟨hI3, hP3, hr3, hl3⟩
        rw [wp_modify]
        refine ⟨⟨A ++ [j], hI3.keep, hI3.same, ?_, fun a ha => ?_, fun i hi hc hA => ?_⟩, ?_⟩
        · show s'.loc = _
          rw [hI3.loc]
          simp [answeredBy]
        · rcases List.mem_append.1 ha with ha | ha
          · obtain ⟨h1, h2⟩ := hI3.acc a ha
            exact ⟨by omega, h2⟩
          · rw [List.mem_singleton] at ha
            subst ha
            exact ⟨by omega, hpos, hres, hP3⟩
        · rw [List.mem_append, not_or, List.mem_singleton] at hA
          rcases Nat.lt_succ_iff_lt_or_eq.1 hi with hi | rfl
          · exact hI3.rej i hi hc hA.1
          · exact absurd rfl hA.2
        · refine ⟨?_, fun i hi => ?_⟩
          · show s'.r + _ = _
            rw [hr3, hoff, hro]
          · show s'.ctx.lastTs.getD i 0 = _
            rw [hl3]
            exact hts' i hi

omit [Signing] [Hashes] [NoiseCrypto] [Mac] in
theorem wp_tp18Rest {P : Cheater → Prop} {s0 : Run} : ∀ (loc : List UInt16) (s : Run), WF s0.ctx → KeepRun P s0 s →
    rest s.ctx = rest s0.ctx →
    (∀ p ∈ loc, p ≠ 0xffff → ∀ x, P ⟨18, 7, UInt8.ofNat (p.toNat / 256), UInt8.ofNat (p.toNat % 256), x⟩) →
    Wp (tp18Rest loc) False (fun e s' => e = 4 ∧ Full s'.ctx ∧ KeepRun P s0 s')
      (fun _ s' => KeepRun P s0 s' ∧ rest s'.ctx = rest s0.ctx ∧ (∀ x ∈ s.ctx.log, x ∈ s'.ctx.log) ∧
        ∀ p ∈ loc, p ≠ 0xffff →
          ∃ x, (⟨18, 7, UInt8.ofNat (p.toNat / 256), UInt8.ofNat (p.toNat % 256), x⟩ : Cheater) ∈ s'.ctx.log) s
  | [], s, _, hk, hr, _ => by
    unfold tp18Rest
    exact ⟨hk, hr, fun _ h => h, fun _ h => by cases h⟩
  | c :: cs, s, wf, hk, hr, hP => by
    unfold tp18Rest
    have wf' := wf.keep hk.1
    by_cases hc : c = 0xffff
    · rw [if_neg (not_not.2 hc)]
      refine (wp_tp18Rest cs s wf hk hr (fun p hp => hP p (List.mem_cons_of_mem _ hp))).mono id (fun _ _ h => h) ?_
      rintro _ s' ⟨h1, h2, h3, h4⟩
      refine ⟨h1, h2, h3, fun p hp hne => ?_⟩
      rcases List.mem_cons.1 hp with rfl | hp
      · exact absurd hc hne
      · exact h4 p hp hne
    · rw [if_pos hc, wp_bind]
      refine wp_addCheater wf'.cheaters (fun hf => ⟨rfl, hf, hk⟩) fun hroom inv => ?_
      have h7 : s.ctx.cheaterLen < s.ctx.cheaters.length := Nat.lt_of_lt_of_le hroom wf'.cheaters
      have hk2 := (keepRun_frame P).trans _ _ _ hk
        ((keepRun_frame P).cheat s _ (hP c List.mem_cons_self hc inv) hroom h7)
      refine (wp_tp18Rest cs _ wf hk2 hr (fun p hp => hP p (List.mem_cons_of_mem _ hp))).mono id (fun _ _ h => h) ?_
      rintro _ s' ⟨h1, h2, h3, h4⟩
      refine ⟨h1, h2, fun x hx => h3 x ?_, fun p hp hne => ?_⟩
      · dsimp only
        rw [log_report h7]
        exact List.mem_append_left _ hx
      · rcases List.mem_cons.1 hp with rfl | hp
        · refine ⟨inv, h3 _ ?_⟩
          dsimp only
          rw [log_report h7]
          exact List.mem_append_right _ (List.mem_singleton.2 rfl)
        · exact h4 p hp hne

theorem tpInputSize_7 {c : TP} {n : ℕ} (hs : c.step = 7) (wf : WF c) (hn : c.n.toNat = n) (hC : Complaints n c) :
    tpInputSize c = .ok (off18 c.known n) := by
  have h1 := wf.n_pos
  have h2 := wf.n_le
  rw [hn] at h1 h2
  unfold tpInputSize
  rw [if_neg (by intro h; rw [h] at hn; simp at hn; omega),
    tpInputSizes_7 hs hn (by omega) h2 (by rw [wf.complaints, hn]; exact hC.len) hC.nodup hC.range, C.ok_bind]
  dsimp only
  rw [if_neg (by decide)]
  rfl

theorem wp_tp18 {clock : ℕ → UInt64} {log : Bool} {scratch : B32} {s : Run} {input : Bytes} {n : ℕ} (wf : WF s.ctx)
    (hn : s.ctx.n.toNat = n) (ht : 1 ≤ s.ctx.t.toNat) (hC : Complaints n s.ctx) (hs : s.ctx.step = 7)
    (h0 : s.ctx.complaintsLen ≠ 0) (hi : input.length = off18 s.ctx.known n) (ho : s.out.length = 0) :
    Wp (tp18 G clock log scratch input) False
      (fun e s' => e = 4 ∧ Full s'.ctx ∧ KeepRun (Origin G clock scratch s.ctx input) s s')
      (fun r s' => r = 3 ∧ s'.ctx.step = 99 ∧ KeepRun (Origin G clock scratch s.ctx input) s s' ∧
        (∀ i < n, 0 < cnt s.ctx.known i →
          (Received clock input s.ctx (exp18 s.ctx i) 0 ∧ Processed G clock scratch s.ctx input i s'.ctx.log) ∨
          ∃ r ≠ 0, Received clock input s.ctx (exp18 s.ctx i) r ∧
            ∃ x, (⟨18, 32 + r, idx i, 0xfe, x⟩ : Cheater) ∈ s'.ctx.log) ∧
        ∀ p ∈ s.ctx.known,
          (∃ x, (⟨18, 7, UInt8.ofNat (p.toNat / 256), UInt8.ofNat (p.toNat % 256), x⟩ : Cheater) ∈ s'.ctx.log) ∨
          ∃ i < n, 0 < cnt s.ctx.known i ∧ Received clock input s.ctx (exp18 s.ctx i) 0 ∧
            p ∈ answers input s.ctx.known i (cnt s.ctx.known i)) s := by
  have hn128 : n ≤ 128 := hn ▸ wf.n_le
  have hcl : s.ctx.complaintsLen.toNat ≤ s.ctx.complaints.length := by
    rw [wf.complaints, hn]; exact hC.len
  have hr : InRange n s.ctx.known := hC.range
  unfold tp18
  rw [wp_bind, wp_get, wp_bind, wp_lift_ok (tpInputSize_7 hs wf hn hC), wp_ite, wp_ite, wp_ite]
  refine ⟨fun h => absurd hi h, fun _ => ⟨fun h => absurd ho h, fun _ => ⟨fun h => absurd h h0, fun _ => ?_⟩⟩⟩
  rw [wp_bind, wp_lift_ok (rd_ok (by omega)), List.drop_zero, ← TP.known, wp_bind, hn,
    wp_lift_ok (count18_eq (n := n) _ _ (by simp) hr.mod), wp_bind, wp_modify, wp_bind]
  have hctr : ((List.range n).map fun i => (List.replicate n 0).getD i 0 + cnt s.ctx.known i) =
      (List.range n).map (cnt s.ctx.known) := by
    apply List.map_congr_left
    intro i hi
    rw [List.getD_eq_getElem?_getD, List.getElem?_replicate]
    split <;> simp
  rw [hctr]
  have hmark : s.ctx.known.map (mark []) = s.ctx.known := by
    conv_rhs => rw [← List.map_id s.ctx.known]
    apply List.map_congr_left
    intro p hp
    simp [mark]
  refine wp_forN (fun j s' => (∃ A, Inv18 G clock scratch s input j A (answeredBy input s.ctx.known A) s') ∧
    s'.r = off18 s.ctx.known j ∧ ∀ i, j ≤ i → s'.ctx.lastTs.getD i 0 = s.ctx.lastTs.getD i 0) ?_ ?_ ?_
  · refine ⟨⟨[], ⟨Keep.refl _, rfl⟩, rfl, ?_, fun _ h => (by cases h), fun _ h => absurd h (Nat.not_lt_zero _)⟩, ?_, fun _ _ => rfl⟩
    · simp [answeredBy, hmark]
    · simp [off18]
  · rintro j s' hj ⟨⟨A, hI⟩, hro, hts⟩
    exact wp_tp18Body G wf hn ht hC.nodup hr hj rfl hi hI hro hts
  · rintro s1 ⟨⟨A, hI⟩, hro, hts⟩
    rw [wp_bind, wp_get, wp_bind]
    -- unanswered complaints
    have hun : ∀ p ∈ s1.loc, p ≠ 0xffff → p ∈ s.ctx.known ∧ p ∉ answeredBy input s.ctx.known A := by
      intro p hp hne
      rw [hI.loc] at hp
      exact (mem_mark hne).1 hp
    have hsplit : ∀ p ∈ s.ctx.known, ∃ i < n, 0 < cnt s.ctx.known i ∧
        pair (UInt8.ofNat (p.toNat / 256)) (UInt8.ofNat (p.toNat % 256)) = p ∧ UInt8.ofNat (p.toNat % 256) = idx i := by
      intro p hp
      obtain ⟨y, x, hy, hx, rfl⟩ := hr p hp
      rw [pair_div, pair_mod, UInt8.ofNat_toNat, UInt8.ofNat_toNat]
      refine ⟨x.toNat - 1, by omega, ?_, rfl, ?_⟩
      · unfold cnt
        rw [List.countP_pos_iff]
        refine ⟨_, hp, ?_⟩
        rw [pair_mod]
        simp
        omega
      · unfold idx
        rw [Nat.sub_add_cancel hx.1, UInt8.ofNat_toNat]
    refine (wp_tp18Rest (P := Origin G clock scratch s.ctx input) s1.loc s1 wf hI.keep hI.same ?_).mono id
      (fun _ _ h => h) ?_
    · intro p hp hne x
      obtain ⟨h1, h2⟩ := hun p hp hne
      obtain ⟨i, hin, hci, hpp, hpi⟩ := hsplit p h1
      refine ⟨rfl, .inr (.inr ⟨rfl, ?_, i, hn ▸ hin, hpi, ?_⟩)⟩
      · dsimp only; rw [hpp]; exact h1
      · dsimp only
        rw [hpp]
        by_cases hA : i ∈ A
        · exact .inr fun h => h2 (List.mem_flatMap.2 ⟨i, hA, h⟩)
        · obtain ⟨r, hr1, hr2, _⟩ := hI.rej i hin hci hA
          exact .inl ⟨r, hr1, hr2⟩
    · rintro _ s2 ⟨hk2, hr2, hsub, hrec⟩
      rw [wp_bind, wp_setCtx, wp_pure]
      refine ⟨rfl, rfl, ⟨?_, hk2.2⟩, ?_, ?_⟩
      · obtain ⟨hk2, _⟩ := hk2
        constructor
        case grow => exact hk2.grow
        case room => exact hk2.room
        case ticks => exact hk2.ticks
        case n => exact hk2.n
        case t => exact hk2.t
        case sid => exact hk2.sid
        case sigPk => exact hk2.sigPk
        case sigSk => exact hk2.sigSk
        case eps => exact hk2.eps
        case ltPks => exact hk2.ltPks
        case cheaterMax => exact hk2.cheaterMax
        case prev => exact hk2.prev
        case lastTs => exact hk2.lastTs
        case sigPks => exact hk2.sigPks
        case commitments => exact hk2.commitments
        case encShares => exact hk2.encShares
        case complaints => exact hk2.complaints
        case cheaters => exact hk2.cheaters
      · intro i hin hc
        by_cases hA : i ∈ A
        · obtain ⟨_, _, h3, h4⟩ := hI.acc i hA
          exact .inl ⟨h3, h4.mono G hsub⟩
        · obtain ⟨r, hr1, hr2, x, hx⟩ := hI.rej i hin hc hA
          exact .inr ⟨r, hr1, hr2, x, hsub _ hx⟩
      · intro p hp
        by_cases hD : p ∈ answeredBy input s.ctx.known A
        · obtain ⟨a, ha, hpa⟩ := List.mem_flatMap.1 hD
          obtain ⟨h1, h2, h3, _⟩ := hI.acc a ha
          exact .inr ⟨a, h1, h2, h3, hpa⟩
        · refine .inl ?_
          have hne : p ≠ 0xffff := by
            obtain ⟨y, x, hy, hx, rfl⟩ := hr p hp
            intro h
            have h1 := pair_mod y x
            rw [h] at h1
            have h2 : (0xffff : UInt16).toNat % 256 = 255 := by decide
            omega
          refine hrec p ?_ hne
          rw [hI.loc]
          exact (mem_mark hne).2 ⟨hp, hD⟩

end Verif.TpDkg
