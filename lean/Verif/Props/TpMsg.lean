import Verif.Proofs.TpToy

/-!
# Properties C40, C41, C42, C43 of the trusted party (`/repo/src/tp-dkg.c`)
-/

set_option linter.unusedSectionVars false

namespace Verif.Props

open TpDkg Wire Spec.Wire H

section
variable [Signing] [Hashes] (G : Type) [Ristretto G] [NoiseCrypto] [Mac]

/-! ## C40 -/

theorem ofNat_peer {j n : ℕ} (hj : j < n) (hn : n ≤ 128) : (UInt8.ofNat j).toNat = j := by
  rw [UInt8.toNat_ofNat', Nat.mod_eq_of_lt (by omega)]

/-- **C40.** After a successful pairwise step (steps 2 and 3 of the handshakes, step 5 of the shares) the bundle handed out
for peer `j` consists of `n` messages; the `i`-th is the `j`-th message in the input of peer `i`, and it is an
authentic message of `i` to `j`. -/
theorem C40_routing (clock : ℕ → UInt64) (log : Bool) (scratch : B32) (c c' : TP) (input out o : Bytes) (g : Good c)
    (hs : c.step = 2 ∨ c.step = 3 ∨ c.step = 5)
    (hr : tpNext G clock log scratch c input out = .ok (0, c', o)) (sz : ℕ)
    (hsz : sz = if c.step = 5 then 256 else 159) (i j : ℕ) (hi : i < c.n.toNat) (hj : j < c.n.toNat) :
    ∃ off, tpPeerMsg c' o.length (UInt8.ofNat j) = (0, some (some off, c.n.toNat * sz)) ∧
      off + c.n.toNat * sz ≤ o.length ∧
      slice o (off + i * sz) sz = slice input (i * (c.n.toNat * sz) + j * sz) sz ∧
      Authentic (slice o (off + i * sz) sz) sz (if c.step = 5 then 8 else UInt8.ofNat (2 + c.step)) (UInt8.ofNat (i + 1))
        (UInt8.ofNat (j + 1)) (c.sigPks.getD i zero32) c.sid := by
  have h9 : c.step ≤ 9 := by omega
  have hn := g.wf.n_le
  obtain ⟨hil, hol⟩ := tpNext_lengths G g h9 hr (by decide) (by decide)
  rw [if_neg (by omega)] at hil
  obtain ⟨m, hm⟩ : ∃ m, c.n.toNat = m := ⟨_, rfl⟩
  rw [hm] at hi hj hil hn ⊢
  have hn' := (keep_tpNext G hr).1.n
  dsimp only at hn'
  have hjn : ¬ (UInt8.ofNat j ≥ c'.n) := by
    rw [hn', ge_iff_le, UInt8.le_iff_toNat_le, ofNat_peer hj hn, hm]; omega
  have hij : (j * m + i) * sz + sz ≤ m * m * sz := by
    have h1 := mul_add_lt hj hi
    have h2 := Nat.mul_le_mul_right sz h1
    rw [Nat.add_mul, Nat.one_mul] at h2
    exact h2
  have hij' : (i * m + j) * sz + sz ≤ m * m * sz := by
    have h1 := mul_add_lt hi hj
    have h2 := Nat.mul_le_mul_right sz h1
    rw [Nat.add_mul, Nat.one_mul] at h2
    exact h2
  have hjm : j * m * sz + m * sz ≤ m * m * sz := by
    have h2 := Nat.mul_le_mul_right (m * sz) (show j + 1 ≤ m from hj)
    rw [Nat.add_mul, Nat.one_mul, ← Nat.mul_assoc, ← Nat.mul_assoc] at h2
    exact h2
  -- the common part: a description of the output
  have main : ∀ f : ℕ → Exp, (∀ k, (f k).len = sz) →
      ((f (j * m + i)).i = i ∧ (f (j * m + i)).off = (i * m + j) * sz ∧ (f (j * m + i)).rcp = idx j ∧
        (f (j * m + i)).pk = c.sigPks.getD i zero32 ∧
        (f (j * m + i)).msgno = if c.step = 5 then 8 else UInt8.ofNat (2 + c.step)) →
      (∀ k < m * m, (f k).off + sz ≤ input.length) →
      (∀ e ∈ exps f (m * m), Result clock input c e 0) →
      o = ((exps f (m * m)).map fun e => slice input e.off e.len).flatten →
      c'.prev = c.step → ∃ off, tpPeerMsg c' o.length (UInt8.ofNat j) = (0, some (some off, m * sz)) ∧
      off + m * sz ≤ o.length ∧
      slice o (off + i * sz) sz = slice input (i * (m * sz) + j * sz) sz ∧
      Authentic (slice o (off + i * sz) sz) sz (if c.step = 5 then 8 else UInt8.ofNat (2 + c.step)) (UInt8.ofNat (i + 1))
        (UInt8.ofNat (j + 1)) (c.sigPks.getD i zero32) c.sid := by
    intro f hlen ⟨hf1, hf2, hf3, hf4, hf5⟩ hb hres ho hprev
    have hlt : j * m + i < m * m := by have := mul_add_lt hj hi; omega
    have hout : o.length = m * m * sz := by
      rw [(keep_tpNext G hr).2, hol, tpOutputSize, hm]
      rcases hs with h | h | h <;> simp only [h, hsz, msg4Size, msg5Size, msg8Size] <;> simp <;> ring
    have hsl : slice o ((j * m + i) * sz) sz = slice input ((i * m + j) * sz) sz := by
      rw [ho, exps, List.map_map]
      rw [slice_flatten (fun k hk => by
        simp only [Function.comp_apply, hlen]
        exact slice_length (hb k hk)) hlt]
      simp only [Function.comp_apply, hlen]
      rw [hf2]
    have e1 : i * (m * sz) + j * sz = (i * m + j) * sz := by ring
    have e2 : j * m * sz + i * sz = (j * m + i) * sz := by ring
    refine ⟨j * m * sz, ?_, by rw [hout]; exact hjm, by rw [e1, e2]; exact hsl, ?_⟩
    · unfold tpPeerMsg
      dsimp only
      rw [if_neg hjn, hprev, hn', hm, ofNat_peer hj hn, hout]
      rcases hs with h | h | h
      · have h1 : sz = 159 := by rw [hsz, h]; rfl
        have h2 : j * 159 * m = j * m * 159 := by ring
        simp only [h]
        rw [h1] at hjm ⊢
        rw [if_neg (by simp only [msg4Size]; omega)]
        simp only [msg4Size, h2, Nat.mul_comm 159 m]
      · have h1 : sz = 159 := by rw [hsz, h]; rfl
        have h2 : j * 159 * m = j * m * 159 := by ring
        simp only [h]
        rw [h1] at hjm ⊢
        rw [if_neg (by simp only [msg5Size]; omega)]
        simp only [msg5Size, h2, Nat.mul_comm 159 m]
      · have h1 : sz = 256 := by rw [hsz, h]; rfl
        simp only [h]
        rw [h1] at hjm ⊢
        rw [if_neg (by simp only [msg8Size]; omega)]
        rfl
    · rw [e2, hsl]
      have := (hres _ (mem_exps hlt)).authentic (by rw [hlen]; exact hb _ hlt) (by rw [hlen, hsz]; split <;> omega)
      rw [hlen, hf1, hf2, hf3, hf4, hf5] at this
      exact this
  have hinput : input.length = m * m * sz := by
    rw [hil, inputOf, hm]
    rcases hs with h | h | h <;> simp only [h, hsz] <;> simp <;> ring
  have hbound : ∀ k < m * m, (k % m * m + k / m) * sz + sz ≤ input.length := by
    intro k hk
    have hm0 : 0 < m := by omega
    have h1 := mul_add_lt (n := m) (Nat.mod_lt k hm0) (Nat.div_lt_of_lt_mul hk)
    have h2 := Nat.mul_le_mul_right sz h1
    rw [Nat.add_mul, Nat.one_mul] at h2
    rw [hinput]
    exact h2
  obtain ⟨e1, e2⟩ := div_mul_add (n := m) (i := j) (j := i) hi
  by_cases h5 : c.step = 5
  · have hw := wp_tp14 (clock := clock) (log := log) (input := input) (s := ⟨c, out, 0, 0, []⟩) g.wf hm
      (by rw [hinput, hsz, if_pos h5]; ring) (by
        show input.length = out.length
        rw [hol, hinput, tpOutputSize, hsz, hm]; simp only [h5, msg8Size]; simp)
    have hh : tpHandler G clock log scratch input c.step = tp14 clock log input := by rw [h5]; rfl
    rw [← hh] at hw
    obtain ⟨s, hE | hQ, rfl, rfl⟩ := tpNext_elim G h9 hw hr
    · exact absurd rfl hE.1
    · obtain ⟨_, _, hres, ho, _, hrest⟩ := hQ
      refine main (exp14 c) (fun k => by rw [hsz, if_pos h5]; rfl) ?_ ?_ hres ho ?_
      · simp only [exp14, hm, e1, e2, hsz, if_pos h5, TpDkg.pkOf, and_self]
      · intro k hk
        have := hbound k hk
        simp only [exp14, hm]
        rw [hsz, if_pos h5] at this
        rw [hsz, if_pos h5]
        exact this
      · exact congrArg Prod.fst hrest
  · have h159 : sz = 159 := by rw [hsz, if_neg h5]
    have hw := wp_tp68 (clock := clock) (log := log) (input := input) (s := ⟨c, out, 0, 0, []⟩) g.wf hm
      (by rw [hinput, h159]; ring) (by
        show input.length = out.length
        rw [hol, hinput, tpOutputSize, h159, hm]
        rcases hs with h | h | h
        · simp only [h, msg4Size]; ring
        · simp only [h, msg5Size]; ring
        · exact absurd h h5)
    have hh : tpHandler G clock log scratch input c.step = tp68 clock log input := by
      rcases hs with h | h | h
      · rw [h]; rfl
      · rw [h]; rfl
      · exact absurd h h5
    rw [← hh] at hw
    obtain ⟨s, hE | hQ, rfl, rfl⟩ := tpNext_elim G h9 hw hr
    · exact absurd rfl hE.1
    · obtain ⟨_, _, hres, ho, hrest⟩ := hQ
      refine main (exp68 c) (fun k => by rw [h159]; rfl) ?_ ?_ hres ho ?_
      · simp only [exp68, hm, e1, e2, h159, if_neg h5, TpDkg.pkOf, and_self]
      · intro k hk
        have := hbound k hk
        simp only [exp68, hm]
        rw [h159] at this ⊢
        exact this
      · exact congrArg Prod.fst hrest

/-! ## C41 -/

/-- The length of the part of a peer's input that is broadcast: in step 1 the long-term signature is cut off. -/
def bcastLen (c : TP) : ℕ := if c.step = 1 then 175 else if c.step = 4 then 111 + 32 * c.t.toNat else 112 + c.n.toNat

/-- The length of a peer's input in the broadcast steps. -/
def bcastIn (c : TP) : ℕ := if c.step = 1 then 239 else bcastLen c

/-- Numbers of the collected and of the broadcast messages. -/
def bcastNo (c : TP) : UInt8 × UInt8 := if c.step = 1 then (2, 3) else if c.step = 4 then (6, 7) else (9, 10)

/-- **C41.** After a successful broadcast step (1: keys, 4: commitments, 6: complaints) every peer is handed the whole
output. It is a signed header of the trusted party, followed by the message of every peer in the order of their
indexes; these messages are authentic. -/
theorem C41_broadcast (clock : ℕ → UInt64) (log : Bool) (scratch : B32) (c c' : TP) (input out o : Bytes) (g : Good c)
    (hs : c.step = 1 ∨ c.step = 4 ∨ c.step = 6)
    (hr : tpNext G clock log scratch c input out = .ok (0, c', o)) :
    (∀ j < c.n.toNat, tpPeerMsg c' o.length (UInt8.ofNat j) = (0, some (some 0, o.length))) ∧
    (∃ now sig, o = encode sig ⟨(bcastNo c).2, UInt32.ofNat o.length, 0, 0xff, now, c.sid⟩
        ((List.range c.n.toNat).map fun i => slice input (i * bcastIn c) (bcastLen c)).flatten ∧
      sig = Signing.sign c.sigSk (Header.mk (bcastNo c).2 (UInt32.ofNat o.length) 0 0xff now c.sid).encode) ∧
    ∀ i < c.n.toNat, Authentic (slice input (i * bcastIn c) (bcastLen c)) (bcastLen c) (bcastNo c).1
      (UInt8.ofNat (i + 1)) 0xff
      (if c.step = 1 then toB32 (slice input (i * 239 + 111) 32) else c.sigPks.getD i zero32) c.sid := by
  have h9 : c.step ≤ 9 := by omega
  have hn := g.wf.n_le
  obtain ⟨hil, hol⟩ := tpNext_lengths G g h9 hr (by decide) (by decide)
  rw [if_neg (by omega)] at hil
  obtain ⟨m, hm⟩ : ∃ m, c.n.toNat = m := ⟨_, rfl⟩
  have hn' := (keep_tpNext G hr).1.n
  have ht' := (keep_tpNext G hr).1.t
  dsimp only at hn' ht'
  have hlen := (keep_tpNext G hr).2
  have hjn : ∀ j < m, ¬ (UInt8.ofNat j ≥ c'.n) := by
    intro j hj
    rw [hn', ge_iff_le, UInt8.le_iff_toNat_le, ofNat_peer hj (by omega), hm]; omega
  have hin : inputOf c = bcastIn c := by
    unfold inputOf bcastIn bcastLen
    rcases hs with h | h | h <;> simp [h]
  have hpeer : c'.prev = c.step → ∀ j < m, tpPeerMsg c' o.length (UInt8.ofNat j) = (0, some (some 0, o.length)) := by
    intro hp j hj
    unfold tpPeerMsg
    dsimp only
    rw [if_neg (hjn j hj), hp, hlen, hol, hn', ht']
    unfold tpOutputSize
    rcases hs with h | h | h
    · simp only [h]; rw [if_neg (by omega)]
    · simp only [h]; rw [if_neg (by omega)]
    · simp only [h]; rw [if_neg (by omega)]
  have hbound : ∀ i < m, i * bcastIn c + bcastLen c ≤ input.length := by
    intro i hi
    have h1 : bcastLen c ≤ bcastIn c := by
      unfold bcastIn bcastLen; split <;> omega
    have h2 := Nat.mul_le_mul_right (bcastIn c) (show i + 1 ≤ m from hi)
    rw [Nat.add_mul, Nat.one_mul] at h2
    rw [hil, hin, hm, Nat.mul_comm (bcastIn c) m]
    omega
  have main : ∀ f : ℕ → Exp, (∀ i, (f i).i = i ∧ (f i).off = i * bcastIn c ∧ (f i).len = bcastLen c ∧
        (f i).msgno = (bcastNo c).1 ∧ (f i).rcp = 0xff ∧
        (f i).pk = (if c.step = 1 then toB32 (slice input (i * 239 + 111) 32) else c.sigPks.getD i zero32)) →
      (∀ e ∈ exps f m, Result clock input c e 0) →
      (∃ k, c.ticks ≤ k ∧ o = tpHeader c (clock k) out.length (bcastNo c).2 0xff ++
          ((exps f m).map fun e => slice input e.off e.len).flatten) → c'.prev = c.step →
      (∀ j < m, tpPeerMsg c' o.length (UInt8.ofNat j) = (0, some (some 0, o.length))) ∧
      (∃ now sig, o = encode sig ⟨(bcastNo c).2, UInt32.ofNat o.length, 0, 0xff, now, c.sid⟩
        ((List.range m).map fun i => slice input (i * bcastIn c) (bcastLen c)).flatten ∧
      sig = Signing.sign c.sigSk (Header.mk (bcastNo c).2 (UInt32.ofNat o.length) 0 0xff now c.sid).encode) ∧
      ∀ i < m, Authentic (slice input (i * bcastIn c) (bcastLen c)) (bcastLen c) (bcastNo c).1
      (UInt8.ofNat (i + 1)) 0xff
      (if c.step = 1 then toB32 (slice input (i * 239 + 111) 32) else c.sigPks.getD i zero32) c.sid := by
    intro f hf hres ⟨k, _, ho⟩ hp
    refine ⟨hpeer hp, ⟨clock k, _, ?_, rfl⟩, ?_⟩
    · rw [hlen]
      conv_lhs => rw [ho]
      unfold tpHeader encode
      rw [List.append_nil, exps, List.map_map]
      congr 3
      funext i
      simp only [Function.comp_apply, (hf i).2.1, (hf i).2.2.1]
    · intro i hi
      obtain ⟨f1, f2, f3, f4, f5, f6⟩ := hf i
      have hb := hbound i hi
      have := (hres _ (mem_exps hi)).authentic (by rw [f2, f3]; exact hb)
        (by rw [f3]; unfold bcastLen; split <;> (try split) <;> omega)
      rw [f1, f2, f3, f4, f5, f6] at this
      exact this
  have hp := tpNext_prev G h9 (by omega) (by omega) hr
  rw [hm]
  rcases hs with h | h | h
  · have hw := wp_tp4 (clock := clock) (log := log) (input := input) (s := ⟨c, out, 0, 0, []⟩) g.wf
      (by rw [hil, hin]; simp [bcastIn, h]) (by show out.length = _; rw [hol, tpOutputSize]; simp only [h]; rfl)
    have hh : tpHandler G clock log scratch input c.step = tp4 clock log input := by rw [h]; rfl
    rw [← hh] at hw
    obtain ⟨s, hE | hQ, hc, rfl⟩ := tpNext_elim G h9 hw hr
    · exact absurd rfl hE.1
    · obtain ⟨_, _, _, hres, _, ho, _⟩ := hQ
      rw [hm] at hres ho
      refine main (exp4 input) (fun i => ?_) hres ?_ hp
      · simp [exp4, bcastIn, bcastLen, bcastNo, h]
      · simpa [bcastNo, h] using ho
  · have hw := wp_tp12 (clock := clock) (log := log) (input := input) (s := ⟨c, out, 0, 0, []⟩) g.wf hm
      (by rw [hil, hin, hm]; simp [bcastIn, bcastLen, h, msg6Size])
      (by show out.length = _; rw [hol, tpOutputSize, hil, hin]; simp [h, hdrSize, bcastIn, bcastLen, msg6Size])
    have hh : tpHandler G clock log scratch input c.step = tp12 clock log input := by rw [h]; rfl
    rw [← hh] at hw
    obtain ⟨s, hE | hQ, hc, rfl⟩ := tpNext_elim G h9 hw hr
    · exact absurd rfl hE.1
    · obtain ⟨_, _, hres, _, ho, _⟩ := hQ
      refine main (exp12 c) (fun i => ?_) hres ?_ hp
      · simp [exp12, bcastIn, bcastLen, bcastNo, h, msg6Size, TpDkg.pkOf]
      · simpa [bcastNo, h] using ho
  · have hsz : msg9Size c.n = 112 + c.n.toNat := by unfold msg9Size; omega
    have hw := wp_tp16 (clock := clock) (log := log) (input := input) (s := ⟨c, out, 0, 0, []⟩) g.wf hm
      (by rw [hil, hin, hm]; simp [bcastIn, bcastLen, h, hsz])
      (by show out.length = _; rw [hol, tpOutputSize]; simp [h])
    have hh : tpHandler G clock log scratch input c.step = tp16 clock log input := by rw [h]; rfl
    rw [← hh] at hw
    obtain ⟨s, hE | hQ, hc, rfl⟩ := tpNext_elim G h9 hw hr
    · exact absurd rfl hE.1
    · obtain ⟨_, _, _, hres, _, _, ho, _⟩ := hQ
      refine main (exp16 c) (fun i => ?_) hres ?_ hp
      · simp [exp16, bcastIn, bcastLen, bcastNo, h, hsz, TpDkg.pkOf]
      · simpa [bcastNo, h] using ho

/-! ## C42 -/

/-- **C42.** A call never exceeds the capacity of the log and keeps the earlier reports in their places. -/
theorem C42_log_bounded_and_kept (clock : ℕ → UInt64) (log : Bool) (scratch : B32) (c c' : TP) (input out o : Bytes)
    (r : Int) (hr : tpNext G clock log scratch c input out = .ok (r, c', o)) :
    c'.cheaterMax = c.cheaterMax ∧ c'.cheaters.length = c.cheaters.length ∧
    (c.cheaterLen ≤ c.cheaterMax → c'.cheaterLen ≤ c'.cheaterMax) ∧ c.cheaterLen ≤ c'.cheaterLen ∧
    c'.cheaters.take c.cheaterLen = c.cheaters.take c.cheaterLen := by
  have hk := (keep_tpNext G hr).1
  obtain ⟨new, _, h1, h2⟩ := hk.grow
  dsimp only at h1 h2
  refine ⟨hk.cheaterMax, hk.cheaters, hk.room, by omega, ?_⟩
  have h3 : c'.cheaters.take c'.cheaterLen = c.cheaters.take c.cheaterLen ++ new := h2
  have h4 := congrArg (List.take c.cheaterLen) h3
  rw [List.take_take, Nat.min_eq_left (by omega)] at h4
  rw [h4]
  have h5 := congrArg List.length h3
  simp only [List.length_take, List.length_append] at h5
  have h6 : c'.cheaters.length = c.cheaters.length := hk.cheaters
  by_cases hle : c.cheaterLen ≤ c.cheaters.length
  · rw [List.take_append_of_le_length (by simp; omega), List.take_take, Nat.min_self]
  · have h7 : new = [] := by
      apply List.eq_nil_of_length_eq_zero; omega
    rw [h7, List.append_nil, List.take_take, Nat.min_self]

/-- **C42.** Whatever the step: unless the log is full or a long-term signature in step 1 is invalid, every expected
message was checked, and if it was rejected there is a report about its sender with the reason. -/
theorem C42_rejected_reported_partial (clock : ℕ → UInt64) (log : Bool) (scratch : B32) (c c' : TP)
    (input out o : Bytes) (r : Int) (g : Good c) (h9 : c.step ≤ 9) (ht : c.step = 7 → 1 ≤ c.t.toNat)
    (hr : tpNext G clock log scratch c input out = .ok (r, c', o)) (h1 : r ≠ 1) (h2 : r ≠ 2) :
    c'.cheaterMax ≤ c'.cheaterLen ∨ (c.step = 1 ∧ r = 3 ∧ ∃ i < c.n.toNat, ¬ ltValid c input i) ∨
      ∀ e ∈ expected c input, Checked clock input c e c'.log := by
  obtain ⟨hil, hol⟩ := tpNext_lengths G g h9 hr h1 h2
  have accepted : ∀ es : List Exp, (∀ e ∈ es, Result clock input c e 0) → ∀ l, ∀ e ∈ es, Checked clock input c e l :=
    fun es h l e he => ⟨0, h e he, fun h0 => absurd rfl h0⟩
  obtain ⟨m, hm⟩ : ∃ m, c.n.toNat = m := ⟨_, rfl⟩
  have hsz : msg9Size c.n = 112 + c.n.toNat := by unfold msg9Size; omega
  unfold expected
  split
  · rename_i h
    simp only [h, inputOf, tpOutputSize] at hil hol
    have hw := wp_tp4 (clock := clock) (log := log) (input := input) (s := ⟨c, out, 0, 0, []⟩) g.wf hil
      (by show out.length = _; exact hol)
    have hh : tpHandler G clock log scratch input c.step = tp4 clock log input := by rw [h]; rfl
    rw [← hh] at hw
    obtain ⟨s, hE | hQ, rfl, rfl⟩ := tpNext_elim G h9 hw hr
    · rcases hE.2 with hf | hl | hc
      · exact .inl hf
      · exact .inr (.inl ⟨h, hl⟩)
      · exact .inr (.inr hc.2)
    · exact .inr (.inr (accepted _ hQ.2.2.2.1 _))
  all_goals first
  | (rename_i h
     have h68 : c.step = 2 ∨ c.step = 3 := by omega
     have hil' : input.length = 159 * m * m := by
       rcases h68 with h | h <;> (simp only [h, inputOf, hm] at hil; simpa using hil)
     have hol' : input.length = out.length := by
       rw [hil', hol]; rcases h68 with h | h <;> simp only [h, tpOutputSize, hm] <;> rfl
     have hw := wp_tp68 (clock := clock) (log := log) (input := input) (s := ⟨c, out, 0, 0, []⟩) g.wf hm hil' hol'
     have hh : tpHandler G clock log scratch input c.step = tp68 clock log input := by rw [h]; rfl
     rw [← hh] at hw
     obtain ⟨s, hE | hQ, rfl, rfl⟩ := tpNext_elim G h9 hw hr
     · rcases hE.2 with hf | hc
       · exact .inl hf
       · rw [hm]; exact .inr (.inr hc.2)
     · rw [hm]; exact .inr (.inr (accepted _ hQ.2.2.1 _)))
  | skip
  · rename_i h
    simp only [h, inputOf, tpOutputSize, hm] at hil hol
    have hw := wp_tp12 (clock := clock) (log := log) (input := input) (s := ⟨c, out, 0, 0, []⟩) g.wf hm
      (by simpa [msg6Size] using hil) (by show out.length = _; rw [hol, hil]; simp [hdrSize, msg6Size])
    have hh : tpHandler G clock log scratch input c.step = tp12 clock log input := by rw [h]; rfl
    rw [← hh] at hw
    obtain ⟨s, hE | hQ, rfl, rfl⟩ := tpNext_elim G h9 hw hr
    · rcases hE.2 with hf | hc
      · exact .inl hf
      · rw [hm]; exact .inr (.inr hc.2)
    · rw [hm]; exact .inr (.inr (accepted _ hQ.2.2.1 _))
  · rename_i h
    simp only [h, inputOf, tpOutputSize, hm] at hil hol
    have hw := wp_tp14 (clock := clock) (log := log) (input := input) (s := ⟨c, out, 0, 0, []⟩) g.wf hm
      (by simpa using hil) (by
        show input.length = out.length
        rw [hol]; simp only [msg8Size]; rw [hil, if_neg (by omega)]; ring)
    have hh : tpHandler G clock log scratch input c.step = tp14 clock log input := by rw [h]; rfl
    rw [← hh] at hw
    obtain ⟨s, hE | hQ, rfl, rfl⟩ := tpNext_elim G h9 hw hr
    · rcases hE.2 with hf | hc
      · exact .inl hf
      · rw [hm]; exact .inr (.inr hc.2)
    · rw [hm]; exact .inr (.inr (accepted _ hQ.2.2.1 _))
  · rename_i h
    simp only [h, inputOf, tpOutputSize] at hil hol
    have hw := wp_tp16 (clock := clock) (log := log) (input := input) (s := ⟨c, out, 0, 0, []⟩) g.wf hm
      (by rw [hsz, hil, hm]; simp) (by show out.length = _; exact hol)
    have hh : tpHandler G clock log scratch input c.step = tp16 clock log input := by rw [h]; rfl
    rw [← hh] at hw
    obtain ⟨s, hE | hQ, rfl, rfl⟩ := tpNext_elim G h9 hw hr
    · rcases hE.2.2 with hf | hc
      · exact .inl hf
      · rw [hm]; exact .inr (.inr hc.2)
    · rw [hm]; exact .inr (.inr (accepted _ hQ.2.2.2.1 _))
  · rename_i h
    simp only [h, if_true] at hil
    simp only [h, tpOutputSize] at hol
    have hw := wp_tp18 G (clock := clock) (log := log) (scratch := scratch) (input := input) (s := ⟨c, out, 0, 0, []⟩)
      g.wf rfl (ht h) (g.seven h).2 h (g.seven h).1 hil (by show out.length = _; exact hol)
    have hh : tpHandler G clock log scratch input c.step = tp18 G clock log scratch input := by rw [h]; rfl
    rw [← hh] at hw
    obtain ⟨s, hE | hQ, rfl, rfl⟩ := tpNext_elim G h9 hw hr
    · exact .inl hE.2.1
    · refine .inr (.inr ?_)
      intro e he
      rw [List.mem_filter] at he
      obtain ⟨he, hc⟩ := he
      unfold exps at he
      rw [List.mem_map] at he
      obtain ⟨i, hi, rfl⟩ := he
      rw [List.mem_range] at hi
      have hc : 0 < cnt c.known i := of_decide_eq_true hc
      rcases hQ.2.2.2.1 i hi hc with hA | ⟨r, _, hA, x, hx⟩
      · exact ⟨0, hA.1.result, fun h0 => absurd rfl h0⟩
      · exact ⟨r, hA.result, fun _ => ⟨x, hx⟩⟩
  · rename_i h
    simp only [h, inputOf, tpOutputSize, hm] at hil hol
    have hw := wp_tp20 (clock := clock) (log := log) (input := input) (s := ⟨c, out, 0, 0, []⟩) g.wf hm
      (by simpa using hil) (by show out.length = _; exact hol)
    have hh : tpHandler G clock log scratch input c.step = tp20 clock log input := by rw [h]; rfl
    rw [← hh] at hw
    obtain ⟨s, hE | hQ, rfl, rfl⟩ := tpNext_elim G h9 hw hr
    · exact .inl hE.2.1
    · rw [hm]; exact .inr (.inr hQ.1)
  · rename_i h
    simp only [h, inputOf, tpOutputSize, hm] at hil hol
    have hw := wp_tp22 (clock := clock) (log := log) (input := input) (s := ⟨c, out, 0, 0, []⟩) g.wf hm
      (by simpa using hil) (by show out.length = _; exact hol)
    have hh : tpHandler G clock log scratch input c.step = tp22 clock log input := by rw [h]; rfl
    rw [← hh] at hw
    obtain ⟨s, hE | hQ, rfl, rfl⟩ := tpNext_elim G h9 hw hr
    · rcases hE.2 with hf | hc
      · exact .inl hf
      · rw [hm]; exact .inr (.inr hc.2)
    · rw [hm]; exact .inr (.inr (accepted _ hQ.2.2.1 _))
  · exact .inr (.inr fun e he => by cases he)

/-- **C42, violated.** A message with an invalid long-term signature is rejected without a report, although there is
room: the call returns 3 and the log stays as it was. -/
theorem C42_long_term_signature_violated (clock : ℕ → UInt64) (log : Bool) (scratch : B32) (c : TP) (input out : Bytes)
    (g : Good c) (h : c.step = 1) (hi : input.length = 239 * c.n.toNat) (ho : out.length = 175 * c.n.toNat + 111)
    (hv : ¬ ltValid c input 0) :
    ∃ c', tpNext G clock log scratch c input out = .ok (3, c', out) ∧ c'.log = c.log := by
  have hn := g.wf.n_pos
  have hw : Wp (tp4 clock log input) False (fun e s' => e = 3 ∧ s'.ctx = c ∧ s'.out = out) (fun _ _ => False)
      ⟨c, out, 0, 0, []⟩ := by
    unfold tp4
    rw [wp_bind, wp_get]; dsimp only
    rw [wp_ite]
    refine ⟨fun h => absurd hi.symm h, fun _ => ?_⟩
    rw [wp_ite]
    refine ⟨fun h => absurd ho h, fun _ => ?_⟩
    rw [wp_bind, wp_modify, wp_bind]
    obtain ⟨m, hm⟩ : ∃ m, c.n.toNat = m + 1 := ⟨c.n.toNat - 1, by omega⟩
    rw [hm, H.forN, H.loop, wp_bind]
    unfold tp4Body
    dsimp only
    rw [hm] at hi
    rw [wp_bind]
    have hd : ∀ {Q : Unit → Run → Prop} {E : Int → Run → Prop} {s : Run}, Q () s →
        Wp (dump log input (0 * (msg2Size + 64)) msg2Size) False E Q s := by
      intro Q E s hq
      exact (wp_dump (by simp only [msg2Size]; omega)).2 hq
    refine hd ?_
    have h1 : 0 < c.ltPks.length := by rw [g.wf.ltPks]; omega
    rw [wp_bind, wp_get, wp_bind, wp_lift_ok (rd_ok (by simp only [msg2Size]; omega)), wp_bind,
      wp_lift_ok (rd_ok (by simp only [msg2Size]; omega)), wp_bind, wp_lift_ok (ld_ok h1), wp_ite]
    refine ⟨fun _ => ⟨rfl, rfl, rfl⟩, fun hc => ?_⟩
    refine absurd ⟨c.ltPks[0], by rw [List.getElem?_eq_getElem h1], ?_⟩ hv
    simpa [slice, msg2Size] using hc
  have hh : tpHandler G clock log scratch input c.step = tp4 clock log input := by rw [h]; rfl
  rw [← hh] at hw
  obtain ⟨r, s, h1, hE | hQ⟩ := tpNext_total G (by omega) hw
  · obtain ⟨rfl, rfl, rfl⟩ := hE
    exact ⟨_, h1, rfl⟩
  · exact hQ.elim

/-! ## C43 -/

/-- **C43.** After the complaint step, whatever the peers sent and whatever the result is, the recorded complaints are
pairs of indexes of peers without duplicates, and fit into the buffer. If the step succeeds, they are exactly the
complaints in the messages. -/
theorem C43_tp_complaints (clock : ℕ → UInt64) (log : Bool) (scratch : B32) (c c' : TP) (input out o : Bytes) (r : Int)
    (g : Good c) (h6 : c.step = 6) (hr : tpNext G clock log scratch c input out = .ok (r, c', o)) :
    (c'.complaints.take c'.complaintsLen.toNat).Nodup ∧
    (∀ p ∈ c'.complaints.take c'.complaintsLen.toNat, ∃ i x : UInt8, (1 ≤ i.toNat ∧ i.toNat ≤ c'.n.toNat) ∧
      (1 ≤ x.toNat ∧ x.toNat ≤ c'.n.toNat) ∧ p.toNat = 256 * i.toNat + x.toNat) ∧
    c'.complaintsLen.toNat ≤ c'.complaints.length ∧
    (r = 0 → c'.complaints.take c'.complaintsLen.toNat = (List.range c.n.toNat).flatMap fun i =>
      (slice input (i * (112 + c.n.toNat) + 112) (input.getD (i * (112 + c.n.toNat) + 111) 0).toNat).map fun x =>
        UInt16.ofNat ((UInt8.ofNat (i + 1)).toNat * 256 + x.toNat)) := by
  have h9 : c.step ≤ 9 := by omega
  have hk := (keep_tpNext G hr).1
  have hn' : c'.n = c.n := hk.n
  have hcl : c'.complaints.length = c.n.toNat * c.n.toNat := by
    rw [← g.wf.complaints]; exact hk.complaints
  by_cases h12 : r = 1 ∨ r = 2
  · -- the lengths are wrong, or the same code is returned for other reasons: the list is described below
    by_cases hlen : input.length = inputOf c * c.n.toNat ∧ out.length = tpOutputSize c
    · obtain ⟨hil, hol⟩ := hlen
      have hsz : msg9Size c.n = inputOf c := by simp only [msg9Size, inputOf, h6]; omega
      have hw := wp_tp16 (clock := clock) (log := log) (input := input) (s := ⟨c, out, 0, 0, []⟩) g.wf rfl
        (by rw [hsz]; exact hil) (by show out.length = _; rw [hol]; simp [tpOutputSize, h6])
      have hh : tpHandler G clock log scratch input c.step = tp16 clock log input := by rw [h6]; rfl
      rw [← hh] at hw
      obtain ⟨s, hs, rfl, rfl⟩ := tpNext_elim G h9 hw hr
      have hC : Complaints c.n.toNat s.ctx := by rcases hs with h | h <;> exact h.2.1
      refine ⟨hC.nodup, ?_, ?_, fun h0 => by omega⟩
      · intro p hp
        obtain ⟨i, x, hi, hx, rfl⟩ := hC.range p hp
        rw [hn']
        exact ⟨i, x, hi, hx, by rw [pair_toNat]; omega⟩
      · rw [hcl]; exact hC.len
    · have hne : input.length ≠ inputOf c * c.n.toNat ∨ out.length ≠ tpOutputSize c := by
        by_contra hc
        rw [not_or, not_not, not_not] at hc
        exact hlen hc
      have hsize : tpInputSize c = .ok (inputOf c * c.n.toNat) :=
        tpInputSize_eq (by omega) (by have := g.wf.n_pos; omega)
      have hw := wp_wrong G (clock := clock) (log := log) (scratch := scratch) (s := ⟨c, out, 0, 0, []⟩) h9 hsize hne
      obtain ⟨s, hE | hQ, rfl, rfl⟩ := tpNext_elim G h9 hw hr
      · obtain ⟨_, rfl⟩ := hE
        have h0 : (after c.step r c).complaintsLen = 0 := g.early (by omega)
        rw [h0]
        exact ⟨List.nodup_nil, fun p hp => by simp at hp, Nat.zero_le _, fun h0 => by omega⟩
      · exact hQ.elim
  · rw [not_or] at h12
    obtain ⟨hil, hol⟩ := tpNext_lengths G g h9 hr h12.1 h12.2
    rw [if_neg (by omega)] at hil
    have hsz : msg9Size c.n = inputOf c := by simp only [msg9Size, inputOf, h6]; omega
    have hw := wp_tp16 (clock := clock) (log := log) (input := input) (s := ⟨c, out, 0, 0, []⟩) g.wf rfl
      (by rw [hsz]; exact hil) (by show out.length = _; rw [hol]; simp [tpOutputSize, h6])
    have hh : tpHandler G clock log scratch input c.step = tp16 clock log input := by rw [h6]; rfl
    rw [← hh] at hw
    obtain ⟨s, hs, rfl, rfl⟩ := tpNext_elim G h9 hw hr
    have hC : Complaints c.n.toNat s.ctx := by rcases hs with h | h <;> exact h.2.1
    refine ⟨hC.nodup, ?_, ?_, fun h0 => ?_⟩
    · intro p hp
      obtain ⟨i, x, hi, hx, rfl⟩ := hC.range p hp
      rw [hn']
      exact ⟨i, x, hi, hx, by rw [pair_toNat]; omega⟩
    · rw [hcl]; exact hC.len
    · rcases hs with hE | hQ
      · exact absurd h0 hE.1
      · have := hQ.2.2.2.2.1
        have e : msg9Size c.n = 112 + c.n.toNat := by unfold msg9Size; omega
        have e2 : complaintsOf c input = fun i =>
            (slice input (i * (112 + c.n.toNat) + 112) (input.getD (i * (112 + c.n.toNat) + 111) 0).toNat).map fun x =>
              UInt16.ofNat ((UInt8.ofNat (i + 1)).toNat * 256 + x.toNat) := by
          funext i
          simp only [complaintsOf, countOf, e]
          rfl
        rw [e2] at this
        exact this

end

/-! ## Runs that meet the hypotheses -/

section
attribute [local instance] Ristretto.toy Toy.hashes Toy.signing Toy.noise Toy.mac

/-- C40: the three pairwise steps succeed with two peers. -/
example (step : ℕ) (h : step = 2 ∨ step = 3 ∨ step = 5) :
    ∃ (clock : ℕ → UInt64) (log : Bool) (scratch : B32) (c c' : TP) (input out o : Bytes), Good c ∧ c.step = step ∧
      c.n.toNat = 2 ∧ tpNext (ZMod L) clock log scratch c input out = .ok (0, c', o) := by
  obtain ⟨c', o, hr⟩ := Toy.accepts step (by omega)
  exact ⟨_, true, _, Toy.tp step, c', _, _, o, Toy.tp_good (by omega), rfl, rfl, hr⟩

/-- C41, C43: the three broadcast steps succeed with two peers. -/
example (step : ℕ) (h : step = 1 ∨ step = 4 ∨ step = 6) :
    ∃ (clock : ℕ → UInt64) (log : Bool) (scratch : B32) (c c' : TP) (input out o : Bytes), Good c ∧ c.step = step ∧
      c.n.toNat = 2 ∧ tpNext (ZMod L) clock log scratch c input out = .ok (0, c', o) := by
  obtain ⟨c', o, hr⟩ := Toy.accepts step (by omega)
  exact ⟨_, true, _, Toy.tp step, c', _, _, o, Toy.tp_good (by omega), rfl, rfl, hr⟩

/-- C43: three complaints of two peers are recorded. -/
example : ∃ c' o, Toy.run true (Toy.tp3 6)
      (Toy.msg 115 9 1 0xff [2, 2, 3, 0] ++ Toy.msg 115 9 2 0xff [0, 0, 0, 0] ++ Toy.msg 115 9 3 0xff [1, 1, 0, 0]) =
        .ok (0, c', o) ∧
      c'.known = [258, 259, 769] ∧ Good (Toy.tp3 6) := by
  obtain ⟨r, c, o, h1, h2⟩ := Toy.holds_elim (p := fun r c _ => r == 0 && c.known == [258, 259, 769])
    (x := Toy.run true (Toy.tp3 6)
      (Toy.msg 115 9 1 0xff [2, 2, 3, 0] ++ Toy.msg 115 9 2 0xff [0, 0, 0, 0] ++ Toy.msg 115 9 3 0xff [1, 1, 0, 0]))
    (by decide +kernel)
  simp only [Bool.and_eq_true, beq_iff_eq] at h2
  exact ⟨c, o, by rw [h1, h2.1], h2.2, Toy.tp3_good (by decide)⟩

/-- C43: a complaint sent twice is an error, and is recorded once. -/
example : ∃ r c' o, Toy.run true (Toy.tp 6)
      (Toy.msg 114 9 1 0xff [2, 2, 2] ++ Toy.msg 114 9 2 0xff [1, 7, 0]) = .ok (r, c', o) ∧ r ≠ 0 ∧
      c'.known = [258] := by
  obtain ⟨r, c, o, h1, h2⟩ := Toy.holds_elim (p := fun r c _ => r != 0 && c.known == [258])
    (x := Toy.run true (Toy.tp 6) (Toy.msg 114 9 1 0xff [2, 2, 2] ++ Toy.msg 114 9 2 0xff [1, 7, 0])) (by decide +kernel)
  simp only [Bool.and_eq_true, beq_iff_eq, bne_iff_ne] at h2
  exact ⟨r, c, o, h1, h2⟩

/-- C42: with room in the log a rejected message is reported, here the first message of step 4. -/
example : ∃ r c' o, Toy.run true (Toy.tp 4) (List.replicate 143 0 ++ Toy.msg 143 6 2 0xff (List.replicate 32 8)) =
      .ok (r, c', o) ∧ (r ≠ 0 ∧ r ≠ 1 ∧ r ≠ 2) ∧ Good (Toy.tp 4) ∧ c'.cheaterLen = 1 ∧ c'.cheaterMax = 3 := by
  obtain ⟨r, c, o, h1, h2⟩ := Toy.holds_elim
    (p := fun r c _ => (r != 0 && r != 1 && r != 2) && (c.cheaterLen == 1 && c.cheaterMax == 3))
    (x := Toy.run true (Toy.tp 4) (List.replicate 143 0 ++ Toy.msg 143 6 2 0xff (List.replicate 32 8))) (by decide +kernel)
  simp only [Bool.and_eq_true, beq_iff_eq, bne_iff_ne] at h2
  exact ⟨r, c, o, h1, ⟨h2.1.1.1, h2.1.1.2, h2.1.2⟩, Toy.tp_good (by decide), h2.2⟩

/-- C42: an invalid long-term signature in step 1. -/
example : ∃ input : Bytes, Good (Toy.tp 1) ∧ (Toy.tp 1).step = 1 ∧ input.length = 239 * (Toy.tp 1).n.toNat ∧
    ¬ ltValid (Toy.tp 1) input 0 := by
  refine ⟨1 :: List.replicate 477 0, Toy.tp_good (by decide), rfl, by
    rw [List.length_cons, List.length_replicate]; rfl, ?_⟩
  intro ⟨pk, h1, h2⟩
  have h3 : pk = zero32 := by
    have : (Toy.tp 1).ltPks[0]? = some zero32 := rfl
    rw [this] at h1; cases h1; rfl
  subst h3
  revert h2
  decide +kernel

end

end Verif.Props
