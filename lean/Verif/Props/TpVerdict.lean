import Verif.Proofs.TpVerdict
import Verif.Props.TpMsg

/-!
# Properties C44, C45, C47, C52, C53 of the trusted party (`/repo/src/tp-dkg.c`)
-/

set_option linter.unusedSectionVars false

namespace Verif.Props

open TpDkg Wire Spec.Wire Spec H Ristretto

section
variable [Signing] [Hashes] (G : Type) [Ristretto G] [NoiseCrypto] [Mac]

/-! ## C44 -/

/-- The accused `i` (from 0) answered the complaint of `x` with `key`: its message is accepted, and `key` is the first
key in it for `x`. -/
def Answered (clock : ℕ → UInt64) (c : TP) (input : Bytes) (i : ℕ) (x : UInt8) (key : B32) : Prop :=
  Acceptable clock input c (exp18 c i) ∧ ∃ k < cnt c.known i, keyFor input c.known i k = x ∧ keyOf input c.known i k = key ∧
    ∀ k' < k, keyFor input c.known i k' ≠ x

/-- What a call in step 7 does to the log. -/
theorem step7 {clock : ℕ → UInt64} {log : Bool} {scratch : B32} {c c' : TP} {input out o : Bytes} {r : Int} (g : Good c)
    (h7 : c.step = 7) (ht : 1 ≤ c.t.toNat) (hr : tpNext G clock log scratch c input out = .ok (r, c', o)) (h1 : r ≠ 1)
    (h2 : r ≠ 2) :
    (∃ new, c'.log = c.log ++ new ∧ ∀ x ∈ new, Origin G clock scratch c input x) ∧
    (Full c' ∨ (r = 3 ∧
      (∀ i < c.n.toNat, 0 < cnt c.known i →
          (Received clock input c (exp18 c i) 0 ∧ Processed G clock scratch c input i c'.log) ∨
          ∃ r ≠ 0, Received clock input c (exp18 c i) r ∧ ∃ x, (⟨18, 32 + r, idx i, 0xfe, x⟩ : Cheater) ∈ c'.log) ∧
        ∀ p ∈ c.known,
          (∃ x, (⟨18, 7, UInt8.ofNat (p.toNat / 256), UInt8.ofNat (p.toNat % 256), x⟩ : Cheater) ∈ c'.log) ∨
          ∃ i < c.n.toNat, 0 < cnt c.known i ∧ Received clock input c (exp18 c i) 0 ∧
            p ∈ answers input c.known i (cnt c.known i))) := by
  have h9 : c.step ≤ 9 := by omega
  obtain ⟨hil, hol⟩ := tpNext_lengths G g h9 hr h1 h2
  simp only [h7, if_true] at hil
  simp only [h7, tpOutputSize] at hol
  have hw := wp_tp18 G (clock := clock) (log := log) (scratch := scratch) (input := input) (s := ⟨c, out, 0, 0, []⟩)
    g.wf rfl ht (g.seven h7).2 h7 (g.seven h7).1 hil (by show out.length = _; exact hol)
  have hh : tpHandler G clock log scratch input c.step = tp18 G clock log scratch input := by rw [h7]; rfl
  rw [← hh] at hw
  obtain ⟨s, hE | hQ, rfl, rfl⟩ := tpNext_elim G h9 hw hr
  · obtain ⟨new, a, _, b⟩ := hE.2.2.1.grow
    exact ⟨⟨new, b, a⟩, .inl hE.2.1⟩
  · obtain ⟨new, a, _, b⟩ := hQ.2.2.1.1.grow
    exact ⟨⟨new, b, a⟩, .inr ⟨hQ.1, hQ.2.2.2.1, hQ.2.2.2.2⟩⟩

theorem idx_inj {i j n : ℕ} (hi : i < n) (hj : j < n) (hn : n ≤ 128) (h : idx i = idx j) : i = j := by
  have := congrArg UInt8.toNat h
  rw [idx_toNat (by omega), idx_toNat (by omega)] at this
  omega

/-- A complaint is about the peer in its lower byte. -/
theorem cnt_pos {cs : List UInt16} {i : ℕ} {x : UInt8} (hi : i < 255) (h : pair x (idx i) ∈ cs) : 0 < cnt cs i := by
  unfold cnt
  rw [List.countP_pos_iff]
  exact ⟨_, h, by simp [pair_mod, idx_toNat hi]⟩

/-- No earlier key is for `x`. -/
theorem fresh_iff {input : Bytes} {cs : List UInt16} {i k : ℕ} {x : UInt8} :
    pair x (idx i) ∉ answers input cs i k ↔ ∀ k' < k, keyFor input cs i k' ≠ x := by
  unfold answers
  simp only [List.mem_map, List.mem_range, not_exists, not_and]
  constructor
  · intro h k' hk' e
    exact h k' hk' (by rw [e])
  · intro h k' hk' e
    exact h k' hk' (pair_inj e).1

/-- The peer named for the results of a judgement. -/
theorem named {e : Int} {peer other : UInt8} {inv : Int} :
    (e = 3 ∨ e = 4 ∨ e = 5 ∨ e = 6 ∨ e = 7 ∨ e = 127 ∨ e = 129 → (cheaterMsg ⟨18, e, peer, other, inv⟩).1 = peer) ∧
    (e = 128 → (cheaterMsg ⟨18, e, peer, other, inv⟩).1 = other) := by
  constructor
  · rintro (rfl | rfl | rfl | rfl | rfl | rfl | rfl) <;> simp [cheaterMsg, bit]
  · rintro rfl; simp [cheaterMsg, bit]

theorem ite_elim {α : Type} {P : α → Prop} {p : Prop} [Decidable p] {a b : α} (ha : p → P a) (hb : ¬ p → P b) :
    P (if p then a else b) := by
  by_cases h : p
  · rw [if_pos h]; exact ha h
  · rw [if_neg h]; exact hb h

/-- Only a false accusation names the second peer of a report. -/
theorem named_only (c : Cheater) : (cheaterMsg c).1 = 0 ∨ (cheaterMsg c).1 = c.peer ∨
    (c.error = 128 ∧ (cheaterMsg c).1 = c.other) := by
  obtain ⟨P, hP⟩ : ∃ P : UInt8 × Text → Prop, P = fun p => p.1 = 0 ∨ p.1 = c.peer ∨ (c.error = 128 ∧ p.1 = c.other) :=
    ⟨_, rfl⟩
  have key : P (cheaterMsg c) := by
    unfold cheaterMsg
    repeat' refine ite_elim (P := P) (fun _ => ?_) fun _ => ?_
    all_goals rw [hP]
    all_goals first
      | exact .inl rfl
      | exact .inr (.inl rfl)
      | exact .inr (.inr ⟨by assumption, rfl⟩)
  rw [hP] at key
  exact key

open Classical in
/-- The verdict about a share judged with a key. -/
theorem judged_named {clock : ℕ → UInt64} {scratch : B32} {c : TP} {i : ℕ} {x : UInt8} {key : B32} {e inv : Int}
    (wf : WF c) (ht : 1 ≤ c.t.toNat) (hi : i < c.n.toNat) (hx : 1 ≤ x.toNat ∧ x.toNat ≤ c.n.toNat) (hne : idx i ≠ x)
    (hst : Stored c i x) (h : Judged G clock scratch c i x key e) :
    (cheaterMsg ⟨18, e, idx i, x, inv⟩).1 = (if ShareRight G c i x key then x else idx i) ∧
      (ShareRight G c i x key ↔ e = 128) := by
  obtain ⟨j, r, last, k, _, h1, h2⟩ := h
  obtain ⟨l, m, h3⟩ := hst.recv wf hi hx (clock j)
  rw [h3] at h1
  simp only [C.ok.injEq, Prod.mk.injEq] at h1
  obtain ⟨rfl, _⟩ := h1
  rcases h2 with h2 | ⟨_, h2⟩
  · exact absurd rfl h2.1
  · rcases h2.verdict G wf ht hi hx hne with ⟨h4, h5⟩ | ⟨h4, h5⟩
    · rw [if_pos h4]
      exact ⟨named.2 h5, by simp [h4, h5]⟩
    · rw [if_neg h4]
      exact ⟨named.1 (by tauto), ⟨fun h => absurd h h4, fun h => by omega⟩⟩

open Classical in
/-- **C44.** The complaint of `x` about the share dealt by `i`, answered with `key`: the report about it names `x` if the
share is right and `i` otherwise, where right means that the key is the one committed to, that the ciphertext decrypts
to a share with the index of `x`, and that this share is consistent with the commitments. There is such a report unless
the log is full. -/
theorem C44_verdict (clock : ℕ → UInt64) (log : Bool) (scratch : B32) (c c' : TP) (input out o : Bytes) (r : Int)
    (g : Good c) (h7 : c.step = 7) (ht : 1 ≤ c.t.toNat) (hr : tpNext G clock log scratch c input out = .ok (r, c', o))
    (h1 : r ≠ 1) (h2 : r ≠ 2) (i : ℕ) (x : UInt8) (key : B32) (hi : i < c.n.toNat) (hp : pair x (idx i) ∈ c.known)
    (hne : idx i ≠ x) (hst : Stored c i x) (ha : Answered clock c input i x key) :
    (c'.cheaterLen < c'.cheaterMax → ∃ rec ∈ c'.log, rec.step = 18 ∧ rec.peer = idx i ∧ rec.other = x ∧
      (cheaterMsg rec).1 = if ShareRight G c i x key then x else idx i) ∧
    ∀ new, c'.log = c.log ++ new → ∀ rec ∈ new, rec.peer = idx i → rec.other = x → rec.error ≠ 6 → rec.error ≠ 7 →
      (cheaterMsg rec).1 = if ShareRight G c i x key then x else idx i := by
  have hn := g.wf.n_le
  have hC := (g.seven h7).2
  have hx : 1 ≤ x.toNat ∧ x.toNat ≤ c.n.toNat := by
    obtain ⟨a, b, ha, hb, e⟩ := hC.range _ hp
    rw [(pair_inj e).1]; exact ha
  have hc := cnt_pos (by omega) hp
  obtain ⟨hres, k, hk, hk1, hk2, hk3⟩ := ha
  obtain ⟨⟨new, hnew, horig⟩, hfull⟩ := step7 G g h7 ht hr h1 h2
  constructor
  · intro hroom
    rcases hfull with hf | ⟨_, hans, _⟩
    · exact absurd hf (by unfold Full; omega)
    · rcases hans i hi hc with ⟨_, hpr⟩ | ⟨r', hr0, hr', _, _⟩
      · obtain ⟨rec, hm, e1, e2, e3, hk4⟩ := hpr k hk
        refine ⟨rec, hm, e1, e2, e3.trans hk1, ?_⟩
        rcases hk4 with ⟨_, hk4⟩ | ⟨_, _, hj⟩
        · rw [hk1] at hk4
          exact (hk4.elim (fun h => h hp) fun h => (fresh_iff.2 hk3) h).elim
        · rw [hk1, hk2] at hj
          obtain ⟨s1, s2, s3, s4, s5⟩ := rec
          dsimp only at e1 e2 e3 hj
          rw [e1, e2, e3, hk1]
          exact (judged_named G g.wf ht hi hx hne hst hj).1
      · exact absurd (hres.received hr') hr0
  · intro new' hnew' rec hrec e2 e3 h6 h7'
    have : new' = new := List.append_cancel_left (hnew'.symm.trans hnew)
    subst this
    obtain ⟨e1, ⟨i', _, _, _, h, _⟩ | ⟨i', hi', _, _, k', hk', hp', ho', hrep⟩ | ⟨h, _⟩⟩ := horig rec hrec
    · exfalso
      rw [e3] at h
      rw [h] at hx
      have : (0xfe : UInt8).toNat = 254 := rfl
      omega
    · have : i' = i := idx_inj hi' hi hn (hp'.symm.trans e2)
      subst this
      rcases hrep with h | ⟨_, hf, hj⟩
      · exact absurd h.1 h6
      · have hkx : keyFor input c.known i' k' = x := ho'.symm.trans e3
        rw [hkx] at hf hj
        have hkk : k' = k := by
          rw [fresh_iff] at hf
          rcases Nat.lt_trichotomy k' k with h | h | h
          · exact absurd hkx (hk3 k' h)
          · exact h
          · exact absurd hk1 (hf k h)
        rw [hkk, hk2] at hj
        obtain ⟨s1, s2, s3, s4, s5⟩ := rec
        dsimp only at e1 e2 e3 hj
        rw [e1, e2, e3]
        exact (judged_named G g.wf ht hi hx hne hst hj).1
    · exact absurd h h7'

/-- **C44.** A share dealt by `dkg_start`, encrypted with the key and accompanied by the code for the key, is right. -/
theorem C44_dealt_share_right (c : TP) (i : ℕ) (x : UInt8) (key : B32) (rnd : ℕ → B32) (hr : ∀ k, RandomScalar (rnd k))
    (cs0 cs : List B32) (sh0 shares : List Share) (s : Share) (wf : WF c) (ht : 1 ≤ c.t.toNat)
    (hx : 1 ≤ x.toNat) (hne : idx i ≠ x) (hc0 : cs0.length = c.t.toNat) (hs0 : sh0.length = c.n.toNat)
    (hst : Dkg.start G true c.n c.t rnd cs0 sh0 = .ok (0, cs, shares)) (hd : dealt c i = cs)
    (hsh : shares[x.toNat - 1]? = some s)
    (hbox : slice (storedBody c i x) 64 49 = NoiseCrypto.aeadEnc key 0 [] (s.index :: s.value.toList))
    (hmac : slice (storedBody c i x) 113 32 =
      (Mac.auth key (NoiseCrypto.aeadEnc key 0 [] (s.index :: s.value.toList))).toList) :
    ShareRight G c i x key := by
  have hn := wf.n_le
  obtain ⟨cs', shares', h1, h2, h3, h4⟩ := C22_honest_shares_verify G c.n c.t rnd hr cs0 sh0 ht (by omega) hc0 hs0
  rw [hst] at h1
  simp only [C.ok.injEq, Prod.mk.injEq, true_and] at h1
  obtain ⟨rfl, rfl⟩ := h1
  obtain ⟨h5, h6⟩ := h4 x (idx i) zero32 s hx hsh
  have hx0 : x ≠ 0 := by rintro rfl; simp at hx
  obtain ⟨Cs, hCs⟩ := (C23_verify_iff G zero32 c.t x (idx i) cs s ht h2 hx0 hne).1 h6
  refine ⟨by rw [hbox, hmac], s.value, ?_, Cs, ?_⟩
  · rw [hbox, NoiseCrypto.dec_enc, h5]
  · rw [hd]; exact hCs

/-- **C44.** A dealer that answers every complaint about it once and whose shares are right is acquitted: the reports of
this step name it, if at all, for a complaint that it has made itself. -/
theorem C44_honest_dealer_acquitted (clock : ℕ → UInt64) (log : Bool) (scratch : B32) (c c' : TP) (input out o : Bytes)
    (r : Int) (g : Good c) (h7 : c.step = 7) (ht : 1 ≤ c.t.toNat)
    (hr : tpNext G clock log scratch c input out = .ok (r, c', o)) (h1 : r ≠ 1) (h2 : r ≠ 2) (i : ℕ) (hi : i < c.n.toNat)
    (hacc : Acceptable clock input c (exp18 c i))
    (hkeys : ∀ k < cnt c.known i, let x := keyFor input c.known i k
      pair x (idx i) ∈ c.known ∧ x ≠ idx i ∧ Stored c i x ∧ ShareRight G c i x (keyOf input c.known i k))
    (honce : ∀ k < cnt c.known i, ∀ k' < cnt c.known i, keyFor input c.known i k = keyFor input c.known i k' → k = k')
    (new : List Cheater) (hnew : c'.log = c.log ++ new) :
    (∀ rec ∈ new, rec.peer = idx i → rec.error = 128 ∨ rec.error = 7) ∧
    ∀ rec ∈ new, (cheaterMsg rec).1 = idx i →
      (rec.error = 128 ∧ rec.other = idx i) ∨ (rec.error = 7 ∧ rec.peer = idx i) := by
  have hn := g.wf.n_le
  obtain ⟨⟨new', hnew', horig⟩, _⟩ := step7 G g h7 ht hr h1 h2
  have : new' = new := List.append_cancel_left (hnew'.symm.trans hnew)
  subst this
  have first : ∀ rec ∈ new', rec.peer = idx i → rec.error = 128 ∨ rec.error = 7 := by
    intro rec hrec hp
    obtain ⟨e1, ⟨i', hi', _, hp', _, r', hr0, hr', _⟩ | ⟨i', hi', _, _, k, hk, hp', ho', hrep⟩ | ⟨h, _⟩⟩ := horig rec hrec
    · have : i' = i := idx_inj hi' hi hn (hp'.symm.trans hp)
      subst this
      exact absurd (hacc.received hr') hr0
    · have : i' = i := idx_inj hi' hi hn (hp'.symm.trans hp)
      subst this
      obtain ⟨a1, a2, a3, a4⟩ := hkeys k hk
      rcases hrep with ⟨_, h⟩ | ⟨_, _, hj⟩
      · exfalso
        rcases h with h | h
        · exact h a1
        · have := (not_congr fresh_iff).1 (not_not.2 h)
          apply this
          intro k' hk' e
          have := honce k' (by omega) k hk e
          omega
      · left
        have hx : 1 ≤ (keyFor input c.known i' k).toNat ∧ (keyFor input c.known i' k).toNat ≤ c.n.toNat := by
          obtain ⟨a, b, ha, hb, e⟩ := (g.seven h7).2.range _ a1
          rw [(pair_inj e).1]; exact ha
        exact (judged_named G (inv := 0) g.wf ht hi hx a2.symm a3 hj).2.1 a4
    · exact .inr h
  refine ⟨first, fun rec hrec hname => ?_⟩
  obtain ⟨s1, s2, s3, s4, s5⟩ := rec
  by_cases hp : s3 = idx i
  · rcases first _ hrec hp with h | h
    · dsimp only at h ⊢
      have h18 : s1 = 18 := (horig _ hrec).1
      subst h h18
      exact .inl ⟨rfl, by rw [named.2 rfl] at hname; exact hname⟩
    · exact .inr ⟨h, hp⟩
  · -- another peer is reported, and only the false accusation names the other one
    left
    have hz : idx i ≠ 0 := by
      intro h
      have := congrArg UInt8.toNat h
      rw [idx_toNat (by omega)] at this
      simp at this
    rcases named_only ⟨s1, s2, s3, s4, s5⟩ with h | h | ⟨h, h'⟩
    · exact absurd (hname.symm.trans h) hz
    · exact absurd (hname.symm.trans h).symm hp
    · exact ⟨h, h'.symm.trans hname⟩

/-- **C44.** After the share step has succeeded, all stored messages are authentic; whether their timestamps stay below
the wrap-around is a matter of the clocks. -/
theorem C44_stored_authentic (clock : ℕ → UInt64) (log : Bool) (scratch : B32) (c c' : TP) (input out o : Bytes)
    (g : Good c) (h5 : c.step = 5) (hr : tpNext G clock log scratch c input out = .ok (0, c', o)) (i : ℕ) (x : UInt8)
    (hi : i < c.n.toNat) (hx : 1 ≤ x.toNat ∧ x.toNat ≤ c.n.toNat) :
    c'.n = c.n ∧ c'.sigPks = c.sigPks ∧ c'.sid = c.sid ∧
    Authentic (slice c'.encShares ((i * c.n.toNat + (x.toNat - 1)) * 256) 256) 256 8 (UInt8.ofNat (i + 1)) x
      (c.sigPks.getD i zero32) c.sid := by
  have h9 : c.step ≤ 9 := by omega
  obtain ⟨hil, hol⟩ := tpNext_lengths G g h9 hr (by decide) (by decide)
  obtain ⟨m, hm⟩ : ∃ m, c.n.toNat = m := ⟨_, rfl⟩
  simp only [h5, inputOf, tpOutputSize, hm] at hil hol
  have hw := wp_tp14 (clock := clock) (log := log) (input := input) (s := ⟨c, out, 0, 0, []⟩) g.wf hm
    (by simpa using hil) (by
      show input.length = out.length
      rw [hol]; simp only [msg8Size]; rw [hil, if_neg (by omega)]; ring)
  have hh : tpHandler G clock log scratch input c.step = tp14 clock log input := by rw [h5]; rfl
  rw [← hh] at hw
  have hk := (keep_tpNext G hr).1
  obtain ⟨s, hE | hQ, rfl, rfl⟩ := tpNext_elim G h9 hw hr
  · exact absurd rfl hE.1
  · obtain ⟨_, _, hres, _, he, hrest⟩ := hQ
    simp only [rest, Prod.mk.injEq] at hrest
    obtain ⟨_, hrest2, _⟩ := hrest
    refine ⟨hk.n, hrest2, hk.sid, ?_⟩
    have hen : (after c.step 0 s.ctx).encShares = input := he
    rw [hen, hm]
    rw [hm] at hi hx
    have hlt : (x.toNat - 1) * m + i < m * m := by have := mul_add_lt (show x.toNat - 1 < m by omega) hi; omega
    have h1 := hres _ (mem_exps hlt)
    have hlt' : (i * m + (x.toNat - 1)) * 256 + 256 ≤ input.length := by
      have := Nat.mul_le_mul_right 256 (mul_add_lt hi (show x.toNat - 1 < m by omega))
      have hl : input.length = m * m * 256 := by rw [hil]; simp; ring
      omega
    have e1 : ((x.toNat - 1) * m + i) % m = i := by
      rw [Nat.mul_comm, Nat.mul_add_mod, Nat.mod_eq_of_lt hi]
    have e2 : ((x.toNat - 1) * m + i) / m = x.toNat - 1 := by
      rw [Nat.mul_comm, Nat.mul_add_div (by omega), Nat.div_eq_of_lt hi, Nat.add_zero]
    have h2 := h1.authentic (by simp only [exp14, hm, e1, e2]; exact hlt') (by simp only [exp14]; omega)
    simp only [exp14, hm, e1, e2] at h2
    have e3 : idx (x.toNat - 1) = x := by unfold idx; rw [Nat.sub_add_cancel hx.1, UInt8.ofNat_toNat]
    rw [e3] at h2
    exact h2

/-! ## C45 -/

/-- The accused `i` (from 0) did not answer the complaint of `x`: its message is not acceptable, or it has no key for `x`. -/
def Unanswered (clock : ℕ → UInt64) (c : TP) (input : Bytes) (i : ℕ) (x : UInt8) : Prop :=
  (∀ k, c.ticks ≤ k → ∀ last m, recvMsg (clock k) input (off18 c.known i) (111 + 33 * cnt c.known i) 11 (idx i) 0
      (c.sigPks.getD i zero32) c.sid c.eps (c.lastTs.getD i 0) ≠ .ok (0, last, m)) ∨
  ∀ k < cnt c.known i, keyFor input c.known i k ≠ x

/-- **C45, violated.** The report about an unanswered complaint names the complainer. -/
theorem C45_unanswered_violated (clock : ℕ → UInt64) (log : Bool) (scratch : B32) (c c' : TP) (input out o : Bytes)
    (r : Int) (g : Good c) (h7 : c.step = 7) (ht : 1 ≤ c.t.toNat)
    (hr : tpNext G clock log scratch c input out = .ok (r, c', o)) (h1 : r ≠ 1) (h2 : r ≠ 2)
    (hroom : c'.cheaterLen < c'.cheaterMax) (i : ℕ) (x : UInt8) (hi : i < c.n.toNat) (hp : pair x (idx i) ∈ c.known)
    (hu : Unanswered clock c input i x) :
    ∃ rec ∈ c'.log, rec.step = 18 ∧ rec.error = 7 ∧ rec.other = idx i ∧ (cheaterMsg rec).1 = x := by
  have hn := g.wf.n_le
  obtain ⟨_, hf | ⟨_, _, hun⟩⟩ := step7 G g h7 ht hr h1 h2
  · exact absurd hf (by unfold Full; omega)
  · rcases hun _ hp with ⟨y, hy⟩ | ⟨i', hi', _, hres, hans⟩
    · rw [pair_div, pair_mod, UInt8.ofNat_toNat, UInt8.ofNat_toNat] at hy
      exact ⟨_, hy, rfl, rfl, rfl, named.1 (by simp)⟩
    · exfalso
      have hii : i' = i := by
        unfold answers at hans
        obtain ⟨k, _, e⟩ := List.mem_map.1 hans
        exact idx_inj hi' hi hn (pair_inj e).2
      subst hii
      rcases hu with hu | hu
      · obtain ⟨k, l, m, hk, h⟩ := hres
        exact hu k hk l m h
      · exact fresh_iff.2 hu hans

/-- **C45.** In this case there is another report, which names the accused. What is missing is that no report names the
complainer. -/
theorem C45_accused_reported_partial (clock : ℕ → UInt64) (log : Bool) (scratch : B32) (c c' : TP) (input out o : Bytes)
    (r : Int) (g : Good c) (h7 : c.step = 7) (ht : 1 ≤ c.t.toNat)
    (hr : tpNext G clock log scratch c input out = .ok (r, c', o)) (h1 : r ≠ 1) (h2 : r ≠ 2)
    (hroom : c'.cheaterLen < c'.cheaterMax) (i : ℕ) (x : UInt8) (hi : i < c.n.toNat) (hp : pair x (idx i) ∈ c.known)
    (hu : Unanswered clock c input i x) :
    ∃ rec ∈ c'.log, rec.step = 18 ∧ rec.peer = idx i ∧ (cheaterMsg rec).1 = idx i := by
  have hn := g.wf.n_le
  have hc := cnt_pos (by omega) hp
  obtain ⟨_, hf | ⟨_, hans, _⟩⟩ := step7 G g h7 ht hr h1 h2
  · exact absurd hf (by unfold Full; omega)
  · rcases hans i hi hc with ⟨hres, hpr⟩ | ⟨r', hr0, hr', y, hy⟩
    · rcases hu with hu | hu
      · obtain ⟨k, l, m, hk, h⟩ := hres
        exact absurd h (hu k hk l m)
      · -- one of the keys is not for an open complaint
        by_contra hno
        have hall : ∀ k < cnt c.known i, pair (keyFor input c.known i k) (idx i) ∈ c.known ∧
            pair (keyFor input c.known i k) (idx i) ∉ answers input c.known i k := by
          intro k hk
          obtain ⟨rec, hm, e1, e2, e3, hk4⟩ := hpr k hk
          rcases hk4 with ⟨e6, _⟩ | ⟨h, h', _⟩
          · exfalso
            apply hno
            refine ⟨rec, hm, e1, e2, ?_⟩
            obtain ⟨s1, s2, s3, s4, s5⟩ := rec
            dsimp only at e1 e2 e6
            rw [e1, e2, e6]
            exact named.1 (by simp)
          · exact ⟨h, h'⟩
        have hnd : ∀ k ≤ cnt c.known i, (answers input c.known i k).Nodup := by
          intro k
          induction k with
          | zero => intro _; simp [answers]
          | succ k ih =>
            intro hk
            rw [answers_succ]
            refine List.Nodup.append (ih (by omega)) (List.nodup_singleton _) ?_
            intro p hp1 hp2
            rw [List.mem_singleton] at hp2
            subst hp2
            exact (hall k (by omega)).2 hp1
        have hsub : answers input c.known i (cnt c.known i) ⊆ c.known.filter fun p => p.toNat % 256 = i + 1 := by
          intro p hp
          obtain ⟨k, hk, rfl⟩ := List.mem_map.1 hp
          rw [List.mem_filter]
          exact ⟨(hall k (List.mem_range.1 hk)).1, by simp [pair_mod, idx_toNat (show i < 255 by omega)]⟩
        have hsp := (hnd _ (Nat.le_refl _)).subperm hsub
        have hlen : (c.known.filter fun p => p.toNat % 256 = i + 1).length ≤
            (answers input c.known i (cnt c.known i)).length := by
          rw [← List.countP_eq_length_filter]
          simp [answers, cnt]
        have hperm := hsp.perm_of_length_le hlen
        have : pair x (idx i) ∈ answers input c.known i (cnt c.known i) := by
          rw [hperm.mem_iff, List.mem_filter]
          exact ⟨hp, by simp [pair_mod, idx_toNat (show i < 255 by omega)]⟩
        exact fresh_iff.2 hu this
    · refine ⟨_, hy, rfl, rfl, ?_⟩
      obtain ⟨k, l, m, _, h⟩ := hr'
      have := recvMsg_range h
      have hr7 : r' = 1 ∨ r' = 2 ∨ r' = 3 ∨ r' = 4 ∨ r' = 5 ∨ r' = 6 ∨ r' = 7 := by omega
      rcases hr7 with rfl | rfl | rfl | rfl | rfl | rfl | rfl <;> simp [cheaterMsg, bit]

/-! ## C47 -/

/-- **C47.** If the log has room, the confirmation step outputs a signed message with the text "OK" or "NO". With "OK" all
`n` peers have sent an authentic message with the hash of the trusted party's transcript. Conversely, if all have done so,
and their messages are acceptable, the text is "OK". -/
theorem C47_confirms_iff (clock : ℕ → UInt64) (log : Bool) (scratch : B32) (c c' : TP) (input out o : Bytes) (r : Int)
    (g : Good c) (h8 : c.step = 8) (hr : tpNext G clock log scratch c input out = .ok (r, c', o)) (h1 : r ≠ 1)
    (h2 : r ≠ 2) (hroom : c'.cheaterLen < c'.cheaterMax) :
    ∃ now sig v, o = encode sig ⟨21, 113, 0, 0xff, now, c.sid⟩ v ∧
      sig = Signing.sign c.sigSk (Header.mk 21 113 0 0xff now c.sid).encode ∧ (v = okText ∨ v = noText) ∧
      (v = okText → ∀ i < c.n.toNat,
        Authentic (slice input (i * 143) 143) 143 20 (UInt8.ofNat (i + 1)) 0 (c.sigPks.getD i zero32) c.sid ∧
        slice input (i * 143 + 111) 32 = (Hashes.generichash32 c.transcript).toList) ∧
      ((∀ i < c.n.toNat, Acceptable clock input c (exp20 c i) ∧
        slice input (i * 143 + 111) 32 = (Hashes.generichash32 c.transcript).toList) → v = okText) ∧
      (r = 0 → v = okText) ∧ (r = 0 ∨ r = 3) ∧ (c.cheaterLen = 0 → (r = 0 ↔ v = okText)) := by
  have h9 : c.step ≤ 9 := by omega
  obtain ⟨hil, hol⟩ := tpNext_lengths G g h9 hr h1 h2
  obtain ⟨m, hm⟩ : ∃ m, c.n.toNat = m := ⟨_, rfl⟩
  simp only [h8, inputOf, tpOutputSize, hm] at hil hol
  have hil : input.length = 143 * m := by simpa using hil
  have hw := wp_tp20 (clock := clock) (log := log) (input := input) (s := ⟨c, out, 0, 0, []⟩) g.wf hm hil
    (by show out.length = _; exact hol)
  have hh : tpHandler G clock log scratch input c.step = tp20 clock log input := by rw [h8]; rfl
  rw [← hh] at hw
  obtain ⟨s, hE | hQ, rfl, rfl⟩ := tpNext_elim G h9 hw hr
  · exact absurd hE.2.1 (by unfold Full; exact Nat.not_le.2 hroom)
  · obtain ⟨_, _, ⟨k, v, _, ho, hv⟩, hend⟩ := hQ
    have e113 : UInt32.ofNat 113 = 113 := rfl
    dsimp only at hv hend
    refine ⟨clock k, _, v, ?_, rfl, ?_, ?_, ?_, ?_, ?_, ?_⟩
    · rw [ho]
      unfold tpHeader encode
      rw [List.append_nil, e113]
    · rcases hv with h | h
      · exact .inl h.1
      · exact .inr h.1
    · rintro rfl i hi
      rw [hm] at hi
      rcases hv with h | h
      · obtain ⟨h3, h4⟩ := h.2.2 i hi
        refine ⟨?_, h4⟩
        have hb : i * 143 + 143 ≤ input.length := by rw [hil]; omega
        exact h3.authentic hb (by show 111 ≤ 143; omega)
      · exact absurd h.1 (by decide)
    · intro hall
      rcases hv with h | ⟨_, _, i, hi, h⟩
      · exact h.1
      · exfalso
        obtain ⟨ha, hs⟩ := hall i (by rw [hm]; exact hi)
        rcases h with ⟨j, r', l, q, hj, hr0, h⟩ | h
        · exact hr0 (ha.received ⟨j, l, q, hj, h⟩)
        · exact h hs
    · intro h0
      rcases hv with h | ⟨_, hlt, _⟩
      · exact h.1
      · exfalso; omega
    · rcases hend with h | h
      · exact .inl h.1
      · exact .inr h.1
    · intro h0
      rcases hv with h | ⟨h, hlt, _⟩
      · refine ⟨fun _ => h.1, fun _ => ?_⟩
        rcases hend with h' | ⟨_, h', _⟩
        · exact h'.1
        · exfalso; omega
      · refine ⟨fun h' => ?_, fun h' => ?_⟩
        · exfalso; omega
        · rw [h] at h'; exact absurd h' (by decide)

/-! ## C53 -/

/-- **C53.** A confirmation returned with success is handed out to every peer. -/
theorem C53_ok_delivered_partial (clock : ℕ → UInt64) (log : Bool) (scratch : B32) (c c' : TP) (input out o : Bytes)
    (g : Good c) (h8 : c.step = 8) (hr : tpNext G clock log scratch c input out = .ok (0, c', o)) :
    o.length = 113 ∧ ∀ j < c.n.toNat, tpPeerMsg c' o.length (UInt8.ofNat j) = (0, some (some 0, 113)) := by
  have h9 : c.step ≤ 9 := by omega
  have hn := g.wf.n_le
  obtain ⟨hil, hol⟩ := tpNext_lengths G g h9 hr (by decide) (by decide)
  obtain ⟨m, hm⟩ : ∃ m, c.n.toNat = m := ⟨_, rfl⟩
  simp only [h8, inputOf, tpOutputSize, hm] at hil hol
  have hlen : o.length = 113 := by rw [(keep_tpNext G hr).2]; exact hol
  have hn' : c'.n = c.n := (keep_tpNext G hr).1.n
  have hw := wp_tp20 (clock := clock) (log := log) (input := input) (s := ⟨c, out, 0, 0, []⟩) g.wf hm
    (by simpa using hil) (by show out.length = _; exact hol)
  have hh : tpHandler G clock log scratch input c.step = tp20 clock log input := by rw [h8]; rfl
  rw [← hh] at hw
  have hprev : c'.prev = 8 := by
    obtain ⟨s, hE | hQ, rfl, rfl⟩ := tpNext_elim G h9 hw hr
    · exact absurd hE.1 (by decide)
    · rcases hQ.2.2.2 with ⟨_, _, h⟩ | ⟨h, _⟩
      · have h3 : s.ctx.step = c.step := congrArg Prod.fst h
        have h4 : (after c.step 0 s.ctx).prev = s.ctx.step := by unfold after; split <;> rfl
        rw [h4, h3, h8]
      · exact absurd h (by decide)
  refine ⟨hlen, fun j hj => ?_⟩
  unfold tpPeerMsg
  dsimp only
  rw [if_neg, hprev, hlen]
  · rfl
  · have e : (UInt8.ofNat j).toNat = j := by rw [UInt8.toNat_ofNat', Nat.mod_eq_of_lt (by omega)]
    rw [hn', ge_iff_le, UInt8.le_iff_toNat_le, e]; omega

/-- **C53, violated.** If the confirmation step returns 3, it has signed a verdict, but no peer is given a message. -/
theorem C53_no_not_delivered_violated (clock : ℕ → UInt64) (log : Bool) (scratch : B32) (c c' : TP) (input out o : Bytes)
    (g : Good c) (h8 : c.step = 8) (hr : tpNext G clock log scratch c input out = .ok (3, c', o)) :
    (∃ now sig v, o = encode sig ⟨21, 113, 0, 0xff, now, c.sid⟩ v ∧
      sig = Signing.sign c.sigSk (Header.mk 21 113 0 0xff now c.sid).encode ∧ (v = okText ∨ v = noText)) ∧
    ∀ j < c.n.toNat, tpPeerMsg c' o.length (UInt8.ofNat j) = (1, none) := by
  have h9 : c.step ≤ 9 := by omega
  have hn := g.wf.n_le
  obtain ⟨hil, hol⟩ := tpNext_lengths G g h9 hr (by decide) (by decide)
  obtain ⟨m, hm⟩ : ∃ m, c.n.toNat = m := ⟨_, rfl⟩
  simp only [h8, inputOf, tpOutputSize, hm] at hil hol
  have hn' : c'.n = c.n := (keep_tpNext G hr).1.n
  have hw := wp_tp20 (clock := clock) (log := log) (input := input) (s := ⟨c, out, 0, 0, []⟩) g.wf hm
    (by simpa using hil) (by show out.length = _; exact hol)
  have hh : tpHandler G clock log scratch input c.step = tp20 clock log input := by rw [h8]; rfl
  rw [← hh] at hw
  obtain ⟨s, hE | hQ, rfl, rfl⟩ := tpNext_elim G h9 hw hr
  · exact absurd hE.1 (by decide)
  · obtain ⟨_, _, ⟨k, v, _, ho, hv⟩, hend⟩ := hQ
    have e113 : UInt32.ofNat 113 = 113 := rfl
    refine ⟨⟨clock k, _, v, ?_, rfl, ?_⟩, fun j hj => ?_⟩
    · rw [ho]
      unfold tpHeader encode
      rw [List.append_nil, e113]
    · rcases hv with h | h
      · exact .inl h.1
      · exact .inr h.1
    · have hprev : (after c.step 3 s.ctx).prev = 99 := by
        have h4 : (after c.step 3 s.ctx).prev = s.ctx.step := by unfold after; split <;> rfl
        rcases hend with ⟨h, _⟩ | ⟨_, _, h⟩
        · exact absurd h (by decide)
        · rw [h4, h]
      unfold tpPeerMsg
      dsimp only
      rw [if_neg, hprev]
      · rfl
      · have e : (UInt8.ofNat j).toNat = j := by rw [UInt8.toNat_ofNat', Nat.mod_eq_of_lt (by omega)]
        rw [hn', ge_iff_le, UInt8.le_iff_toNat_le, e]; omega

/-! ## C52 -/

/-- The report can be explained: the returned peer is the culprit, not 0, and the text fits. -/
def Explained (rec : Cheater) : Prop :=
  (cheaterMsg rec).1 = culprit rec ∧ (cheaterMsg rec).1 ≠ 0 ∧ Fits rec (cheaterMsg rec).2

/-- The reports that `tpdkg_cheater_msg` does not handle. -/
def Unhandled (rec : Cheater) : Prop :=
  (rec.step ≠ 18 ∧ rec.step ≠ 20 ∧ (rec.error = 65 ∨ rec.error = 71)) ∨ (rec.step = 16 ∧ rec.error = 6) ∨
  (rec.step = 18 ∧ (rec.error = 3 ∨ rec.error = 4 ∨ rec.error = 5 ∨ rec.error = 7 ∨ rec.error = 127)) ∨
  (rec.step = 20 ∧ rec.error ≠ 1)

omit [Signing] [Hashes] [NoiseCrypto] [Mac] in
theorem explained_of_recordable {k : ℕ} {rec : Cheater} (h : Recordable k rec) (hb : ¬ Unhandled rec) :
    Explained rec := by
  have h0 : ∀ i < 255, idx i ≠ 0 := by
    intro i hi h
    have := congrArg UInt8.toNat h
    rw [idx_toNat hi] at this
    simp at this
  have codes : ∀ r : Int, RecvCode r → r = 1 ∨ r = 2 ∨ r = 3 ∨ r = 4 ∨ r = 5 ∨ r = 6 ∨ r = 7 := by
    rintro r ⟨h1, h2⟩; omega
  cases h with
  | recv4 i r k hi hr | recv12 i r k hi hr | recv16 i r k hi hr | recv22 i r k hi hr =>
    rcases codes r hr with rfl | rfl | rfl | rfl | rfl | rfl | rfl <;>
      first | (exfalso; apply hb; simp [Unhandled]; done) | simp [Explained, cheaterMsg, culprit, Fits, h0 i hi]
  | recv6 i j r k hi hj hr | recv8 i j r k hi hj hr | recv14 i j r k hi hj hr =>
    rcases codes r hr with rfl | rfl | rfl | rfl | rfl | rfl | rfl <;>
      first | (exfalso; apply hb; simp [Unhandled]; done) | simp [Explained, cheaterMsg, culprit, Fits, h0 j hj]
  | range16 i x k hi => simp [Explained, cheaterMsg, culprit, Fits, h0 i hi]
  | dup16 i x k hi => simp [Explained, cheaterMsg, culprit, Fits, h0 i hi]
  | many16 k => exact absurd hb (by simp [Unhandled])
  | recv18 i r k hi hr =>
    rcases codes r hr with rfl | rfl | rfl | rfl | rfl | rfl | rfl <;>
      simp [Explained, cheaterMsg, bit, culprit, Fits, h0 i hi]
  | rest18 a b k => exact absurd hb (by simp [Unhandled])
  | recv20 i r k hi hr =>
    exact absurd hb (by
      obtain ⟨h1, h2⟩ := hr
      rw [not_not]
      unfold Unhandled
      dsimp only
      exact .inr (.inr (.inr ⟨rfl, by show (1 + r : Int) ≠ 1; omega⟩)))
  | mismatch20 i k hi => simp [Explained, cheaterMsg, culprit, Fits, h0 i hi]
  | verdict18 i _ hi hv =>
    obtain ⟨a, b, c, d, e⟩ := rec
    obtain ⟨e1, e2, hv⟩ := hv
    dsimp only at e1 e2 hv
    subst e1 e2
    rcases hv with ⟨r, hr, e⟩ | e | e | e | e | e | ⟨e, hne⟩ | e
    · rcases codes r hr with rfl | rfl | rfl | rfl | rfl | rfl | rfl <;> norm_num at e <;> subst e <;>
        simp [Explained, cheaterMsg, bit, culprit, Fits, h0 i hi]
    all_goals subst e
    all_goals first | (exfalso; apply hb; simp [Unhandled]; done) | simp [Explained, cheaterMsg, bit, culprit, Fits, h0 i hi, *]

/-- **C52.** Every report that a call adds can be explained, except for those with the codes in `Unhandled`. -/
theorem C52_explained_partial (clock : ℕ → UInt64) (log : Bool) (scratch : B32) (c c' : TP) (input out o : Bytes) (r : Int)
    (hr : tpNext G clock log scratch c input out = .ok (r, c', o)) :
    ∃ new, c'.log = c.log ++ new ∧ ∀ rec ∈ new, ¬ Unhandled rec → Explained rec := by
  obtain ⟨new, h1, _, h2⟩ := (keep_tpNext G hr).1.grow
  exact ⟨new, h2, fun rec h => explained_of_recordable (h1 rec h)⟩

omit [Signing] [Hashes] [NoiseCrypto] [Mac] in
/-- **C52, violated.** The reports in `Unhandled` cannot be explained. For code 5 the share has an index other than that of
the complainer, for code 7 the two peers differ, as they do for every complaint about another peer. -/
theorem C52_unhandled_not_explained (rec : Cheater) (h : Unhandled rec)
    (h5 : rec.step = 18 → rec.error = 5 → rec.invalidIndex ≠ rec.other.toNat)
    (h7 : rec.step = 18 → rec.error = 7 → rec.peer ≠ rec.other) : ¬ Explained rec := by
  obtain ⟨a, b, c, d, e⟩ := rec
  dsimp only [Unhandled] at h h5 h7
  rintro ⟨x1, x2, x3⟩
  rcases h with ⟨n18, n20, rfl | rfl⟩ | ⟨rfl, rfl⟩ | ⟨rfl, rfl | rfl | rfl | rfl | rfl⟩ | ⟨rfl, hb⟩
  · apply x2
    by_cases h16 : a = 16 <;> simp [cheaterMsg, n18, n20, h16]
  · apply x2
    by_cases h16 : a = 16 <;> simp [cheaterMsg, n18, n20, h16]
  · exact x2 (by simp [cheaterMsg])
  · simp [cheaterMsg, Fits, bit] at x3
  · simp [cheaterMsg, Fits, bit] at x3
  · simp [cheaterMsg, Fits, bit] at x3
    exact h5 rfl rfl x3.2.2
  · simp [cheaterMsg, culprit, bit] at x1
    exact h7 rfl rfl x1
  · simp [cheaterMsg, Fits, bit] at x3
  · by_cases hr : b > 65 ∧ b ≤ 70
    · simp [Fits, cheaterMsg, hr, hb] at x3
      omega
    · exact x2 (by simp [cheaterMsg, hr, hb])

/-- **C52, violated.** In the steps 2 to 6 and 9 a message with a wrong length field is reported, with a code for which no
peer is named. -/
theorem C52_wrong_length_violated (clock : ℕ → UInt64) (log : Bool) (scratch : B32) (c c' : TP) (input out o : Bytes)
    (r : Int) (g : Good c) (hs : 2 ≤ c.step ∧ c.step ≤ 6 ∨ c.step = 9)
    (hr : tpNext G clock log scratch c input out = .ok (r, c', o)) (h1 : r ≠ 1) (h2 : r ≠ 2)
    (hroom : c'.cheaterLen < c'.cheaterMax) (e : Exp) (he : e ∈ expected c input)
    (hl : beNat (slice input (e.off + 65) 4) ≠ e.len) :
    ∃ rec ∈ c'.log, rec.step = e.rstep ∧ rec.peer = idx e.i ∧ rec.error = 65 ∧ (cheaterMsg rec).1 = 0 ∧ ¬ Explained rec := by
  have hb : e.base = 64 := by
    obtain ⟨st, hst⟩ : ∃ st, c.step = st := ⟨_, rfl⟩
    unfold expected at he
    rw [hst] at he hs
    have : st = 2 ∨ st = 3 ∨ st = 4 ∨ st = 5 ∨ st = 6 ∨ st = 9 := by omega
    rcases this with rfl | rfl | rfl | rfl | rfl | rfl <;> obtain ⟨k, _, rfl⟩ := List.mem_map.1 he <;> rfl
  have hch : Checked clock input c e c'.log := by
    rcases C42_rejected_reported_partial G clock log scratch c c' input out o r g (by omega) (by omega) hr h1 h2 with
      h | ⟨h, _⟩ | h
    · exact absurd h (Nat.not_le.2 hroom)
    · omega
    · exact h e he
  obtain ⟨q, ⟨k, last, last', m, _, hq⟩, hrep⟩ := hch
  have hq1 : q = 1 := by
    unfold recvMsg at hq
    rw [C.bind_eq_ok] at hq
    obtain ⟨l, hl', hq⟩ := hq
    have e4 := rd_length hl'
    have e5 : l = slice input (e.off + 65) 4 := by
      unfold rd at hl'
      split at hl'
      · cases hl'; rfl
      · cases hl'
    rw [htonl_u32 e4, e5, if_pos hl] at hq
    cases hq; rfl
  subst hq1
  obtain ⟨x, hx⟩ := hrep (by decide)
  rw [hb] at hx
  have hz : (cheaterMsg ⟨e.rstep, 64 + 1, idx e.i, e.other, x⟩).1 = 0 := by
    by_cases h16 : e.rstep = 16
    · simp [cheaterMsg, h16]
    · by_cases h18 : e.rstep = 18
      · simp [cheaterMsg, h18, bit]
      · by_cases h20 : e.rstep = 20 <;> simp [cheaterMsg, h16, h18, h20]
  exact ⟨_, hx, rfl, rfl, rfl, hz, fun h => h.2.1 hz⟩

end

/-! ## Examples -/

section
attribute [local instance] Ristretto.toy Toy.hashes Toy.signing Toy.noise Toy.mac

/-- Peer 1 complains about peer 2. The stored share of peer 2 for peer 1 is 3, the key is 9…9. -/
def exampleTp : TP :=
  { Toy.tp7 with
    commitments := [zero32, B32.ofZ 3]
    encShares := List.replicate 512 0 ++ Toy.msg 256 8 2 1 (List.replicate 64 0 ++
      (1 :: (B32.ofZ 3).toList ++ List.replicate 16 0) ++ List.replicate 32 9) ++ List.replicate 256 0 }

theorem exampleTp_good : Good exampleTp := by
  have g := Toy.tp7_good
  refine ⟨{ g.wf with commitments := rfl, encShares := ?_ }, g.early, fun h => ⟨(g.seven h).1, { (g.seven h).2 with }⟩⟩
  show exampleTp.encShares.length = 2 * 2 * 256
  decide +kernel

theorem exampleTp_answered : Answered (fun _ => 5) exampleTp (Toy.input 7) 1 1 (toB32 (List.replicate 32 9)) := by
  refine ⟨fun k _ => ?_, 0, by decide +kernel, by decide +kernel, by decide +kernel, by omega⟩
  have h : (match recvMsg 5 (Toy.input 7) (off18 exampleTp.known 1) (111 + 33 * cnt exampleTp.known 1) 11 (idx 1) 0
      (pkOf exampleTp 1) exampleTp.sid exampleTp.eps (exampleTp.lastTs.getD 1 0) with
      | .ok (r, _, _) => r == 0 | .ub _ => false) = true := by decide +kernel
  show ∃ last' m, recvMsg 5 (Toy.input 7) (off18 exampleTp.known 1) (111 + 33 * cnt exampleTp.known 1) 11 (idx 1) 0
      (pkOf exampleTp 1) exampleTp.sid exampleTp.eps (exampleTp.lastTs.getD 1 0) = .ok (0, last', m)
  split at h
  · rename_i r l m e
    rw [beq_iff_eq] at h
    subst h
    exact ⟨l, m, e⟩
  · cases h

theorem exampleTp_stored : Stored exampleTp 1 1 := by
  refine ⟨toB64 (Header.mk 8 256 2 1 5 zero32).encode, ⟨8, 256, 2, 1, 5, zero32⟩, List.replicate 64 0 ++ (1 :: (B32.ofZ 3).toList ++ List.replicate 16 0) ++
    List.replicate 32 9, ?_, by decide, rfl, by decide, rfl, rfl, ?_, by decide, by decide⟩
  · decide +kernel
  · decide +kernel

theorem exampleTp_right : ShareRight (ZMod L) exampleTp 1 1 (toB32 (List.replicate 32 9)) := by
  refine ⟨by decide +kernel, B32.ofZ 3, by decide +kernel, [3], by decide +kernel, by simp, ?_⟩
  rw [maskedVal_ofZ]
  have h : ∀ (G : Type) [Ristretto G] (x : ZMod L) (g : G), (3 : ℕ) • (base : G) = g →
      (3 : ZMod L) • (base : G) = commitEval x [g] := by
    intro G _ x g h
    simp only [commitEval, smul_zero, add_zero]
    rw [← h, ← Nat.cast_smul_eq_nsmul (ZMod L)]
    rfl
  refine h (ZMod L) _ _ ?_
  show (3 : ℕ) • (1 : ZMod L) = 3
  simp

/-- C44: the complaint of peer 1 about the share of peer 2 is answered, the share is right, and peer 1 is named. -/
example : ∃ r c' o, Toy.run true exampleTp (Toy.input 7) = .ok (r, c', o) ∧ r ≠ 1 ∧ r ≠ 2 ∧ Good exampleTp ∧
    exampleTp.step = 7 ∧ 1 ≤ exampleTp.t.toNat ∧ pair 1 (idx 1) ∈ exampleTp.known ∧ idx 1 ≠ 1 ∧ Stored exampleTp 1 1 ∧
    Answered (fun _ => 5) exampleTp (Toy.input 7) 1 1 (toB32 (List.replicate 32 9)) ∧
    ShareRight (ZMod L) exampleTp 1 1 (toB32 (List.replicate 32 9)) ∧ c'.cheaterLen < c'.cheaterMax ∧
    c'.log.map cheaterMsg = [(1, .falselyAccused 2 1)] := by
  obtain ⟨r, c, o, h1, h2⟩ := Toy.holds_elim (p := fun r c _ => r == 3 && decide (c.cheaterLen < c.cheaterMax) &&
      (c.log.map cheaterMsg == [(1, .falselyAccused 2 1)])) (x := Toy.run true exampleTp (Toy.input 7)) (by decide +kernel)
  simp only [Bool.and_eq_true, beq_iff_eq, decide_eq_true_eq] at h2
  obtain ⟨⟨rfl, h3⟩, h4⟩ := h2
  exact ⟨3, c, o, h1, by decide, by decide, exampleTp_good, rfl, by decide, by decide, by decide, exampleTp_stored,
    exampleTp_answered, exampleTp_right, h3, h4⟩

/-- C44: with another stored share peer 2 is named. -/
example : ∃ c' o, Toy.run true { exampleTp with commitments := [zero32, B32.ofZ 4] } (Toy.input 7) = .ok (3, c', o) ∧
    c'.log.map cheaterMsg = [(2, .caught 2 1)] := by
  obtain ⟨r, c, o, h1, h2⟩ := Toy.holds_elim (p := fun r c _ => r == 3 &&
      (c.log.map cheaterMsg == [(2, .caught 2 1)])) (x := Toy.run true { exampleTp with commitments := [zero32, B32.ofZ 4] }
        (Toy.input 7)) (by decide +kernel)
  simp only [Bool.and_eq_true, beq_iff_eq] at h2
  obtain ⟨rfl, h4⟩ := h2
  exact ⟨c, o, h1, h4⟩

/-- C45: the complaint of peer 1 about peer 2 is not answered. The second of the two reports names peer 1. -/
example : ∃ r c' o, Toy.run true Toy.tp7 (List.replicate 144 0) = .ok (r, c', o) ∧ r ≠ 1 ∧ r ≠ 2 ∧
    c'.cheaterLen < c'.cheaterMax ∧ pair 1 (idx 1) ∈ Toy.tp7.known ∧
    Unanswered (fun _ => 5) Toy.tp7 (List.replicate 144 0) 1 1 ∧
    c'.log.map cheaterMsg = [(2, .keyMsg 2 0xfe 1), (1, .notVerified 1 2)] := by
  obtain ⟨r, c, o, h1, h2⟩ := Toy.holds_elim (p := fun r c _ => r == 3 && decide (c.cheaterLen < c.cheaterMax) &&
      (c.log.map cheaterMsg == [(2, .keyMsg 2 0xfe 1), (1, .notVerified 1 2)]))
    (x := Toy.run true Toy.tp7 (List.replicate 144 0)) (by decide +kernel)
  simp only [Bool.and_eq_true, beq_iff_eq, decide_eq_true_eq] at h2
  obtain ⟨⟨rfl, h3⟩, h4⟩ := h2
  refine ⟨3, c, o, h1, by decide, by decide, h3, by decide, .inr fun k hk => ?_, h4⟩
  have : k = 0 := by
    have : cnt Toy.tp7.known 1 = 1 := by decide
    omega
  subst this
  decide +kernel

/-- C47, C53: with both hashes right the text is "OK". -/
example : ∃ c' o, Toy.run true (Toy.tp 8) (Toy.input 8) = .ok (0, c', o) ∧ Good (Toy.tp 8) ∧
    c'.cheaterLen < c'.cheaterMax ∧ o.drop 111 = okText := by
  obtain ⟨r, c, o, h1, h2⟩ := Toy.holds_elim (p := fun r c o => r == 0 && decide (c.cheaterLen < c.cheaterMax) &&
      (o.drop 111 == okText)) (x := Toy.run true (Toy.tp 8) (Toy.input 8)) (by decide +kernel)
  simp only [Bool.and_eq_true, beq_iff_eq, decide_eq_true_eq] at h2
  obtain ⟨⟨rfl, h3⟩, h4⟩ := h2
  exact ⟨c, o, h1, Toy.tp_good (by decide), h3, h4⟩

/-- C47, C53: with a wrong hash it is "NO", and no peer is given the message. -/
example : ∃ c' o, Toy.run true (Toy.tp 8) (Toy.msg 143 20 1 0 (1 :: List.replicate 31 0) ++
      Toy.msg 143 20 2 0 (List.replicate 32 0)) = .ok (3, c', o) ∧ c'.cheaterLen < c'.cheaterMax ∧ o.drop 111 = noText ∧
      tpPeerMsg c' o.length 0 = (1, none) ∧ tpPeerMsg c' o.length 1 = (1, none) := by
  obtain ⟨r, c, o, h1, h2⟩ := Toy.holds_elim (p := fun r c o => r == 3 && decide (c.cheaterLen < c.cheaterMax) &&
      (o.drop 111 == noText) && tpPeerMsg c o.length 0 == (1, none) && tpPeerMsg c o.length 1 == (1, none))
    (x := Toy.run true (Toy.tp 8) (Toy.msg 143 20 1 0 (1 :: List.replicate 31 0) ++
      Toy.msg 143 20 2 0 (List.replicate 32 0))) (by decide +kernel)
  simp only [Bool.and_eq_true, beq_iff_eq, decide_eq_true_eq] at h2
  obtain ⟨⟨⟨⟨rfl, h3⟩, h4⟩, h5⟩, h6⟩ := h2
  exact ⟨c, o, h1, h3, h4, h5, h6⟩

/-- C52: of these reports about three complaints in step 16 the first can be explained, the one about the length of the
second message cannot. -/
example : ∃ r c' o, Toy.run true (Toy.tp 6) (Toy.msg 114 9 1 0xff [1, 7, 0] ++ Toy.msg 113 9 2 0xff [0, 0, 0]) =
      .ok (r, c', o) ∧ r ≠ 1 ∧ r ≠ 2 ∧ c'.cheaterLen < c'.cheaterMax ∧
      c'.log.map cheaterMsg = [(1, .invalidPeer 1 7), (0, .badCode16 65)] := by
  obtain ⟨r, c, o, h1, h2⟩ := Toy.holds_elim (p := fun r c _ => r != 1 && r != 2 &&
      decide (c.cheaterLen < c.cheaterMax) && (c.log.map cheaterMsg == [(1, .invalidPeer 1 7), (0, .badCode16 65)]))
    (x := Toy.run true (Toy.tp 6) (Toy.msg 114 9 1 0xff [1, 7, 0] ++ Toy.msg 113 9 2 0xff [0, 0, 0])) (by decide +kernel)
  simp only [Bool.and_eq_true, beq_iff_eq, bne_iff_ne, decide_eq_true_eq] at h2
  exact ⟨r, c, o, h1, h2.1.1.1, h2.1.1.2, h2.1.2, h2.2⟩

end

end Verif.Props
