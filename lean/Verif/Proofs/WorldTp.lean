import Verif.Proofs.World
import Verif.Props.PeerRun

/-!
# What a successful call of the trusted party does
-/

set_option linter.unusedSectionVars false

namespace Verif.TpDkg

open H Wire Spec.Wire Spec Ristretto Props

/-- The complaints in a message to the peer are those of the trusted party. -/
def Told (c : TP) (inbox : Bytes) : Prop :=
  ∀ j < c.n.toNat, ∀ x, x ∈ accused c.n.toNat inbox j ↔ pair (idx j) x ∈ c.known

variable [Signing] [Hashes] [NoiseCrypto] [Mac] (G : Type) [Ristretto G]
variable {clock : ℕ → UInt64} {log : Bool} {scratch : B32} {c c' : TP} {input out o : Bytes} {i j : ℕ}

theorem delivered_some {off len : ℕ} {r : Int} (h : tpPeerMsg c' o.length (UInt8.ofNat i) = (r, some (some off, len))) :
    delivered c' o i = slice o off len := by
  unfold delivered
  rw [h]

theorem slice_full {b : Bytes} : slice b 0 b.length = b := by
  unfold slice
  rw [List.drop_zero, List.take_length]

/-- A broadcast is delivered to everyone and contains the messages of all peers. -/
theorem eff_bcast (g : Good c) (hs : c.step = 1 ∨ c.step = 4 ∨ c.step = 6)
    (hr : tpNext G clock log scratch c input out = .ok (0, c', o)) :
    (∀ j < c.n.toNat, delivered c' o j = o) ∧
    ∀ j < c.n.toNat, slice o (111 + j * bcastLen c) (bcastLen c) = slice input (j * bcastIn c) (bcastLen c) := by
  obtain ⟨h1, ⟨now, sig, h2, -⟩, h3⟩ := C41_broadcast G clock log scratch c c' input out o g hs hr
  refine ⟨fun j hj => (delivered_some (h1 j hj)).trans slice_full, fun j hj => ?_⟩
  have hl : ∀ j < c.n.toNat, (slice input (j * bcastIn c) (bcastLen c)).length = bcastLen c := by
    obtain ⟨hil, -⟩ := tpNext_lengths G g (by omega) hr (by decide) (by decide)
    rw [if_neg (by omega)] at hil
    have hin : inputOf c = bcastIn c := by
      unfold inputOf bcastIn bcastLen
      rcases hs with h | h | h <;> simp [h]
    intro j hj
    apply slice_length
    have h1 : bcastLen c ≤ bcastIn c := by
      unfold bcastIn bcastLen; split <;> omega
    have h2 := Nat.mul_le_mul_right (bcastIn c) (show j + 1 ≤ c.n.toNat from hj)
    rw [Nat.add_mul, Nat.one_mul] at h2
    rw [hil, hin, Nat.mul_comm (bcastIn c)]
    omega
  have hf := slice_flatten (sz := bcastLen c) hl hj
  rw [← hf]
  have he : ∀ b : Bytes, slice (encode sig ⟨(bcastNo c).2, UInt32.ofNat o.length, 0, 0xff, now, c.sid⟩ b)
      (111 + j * bcastLen c) (bcastLen c) = slice b (j * bcastLen c) (bcastLen c) := by
    intro b
    rw [← Peer.encode_nil_append]
    unfold slice
    have : (encode sig ⟨(bcastNo c).2, UInt32.ofNat o.length, 0, 0xff, now, c.sid⟩ []).length = 111 := by
      rw [encode_length]; rfl
    rw [List.drop_append, List.drop_of_length_le (by omega), this, List.nil_append, Nat.add_sub_cancel_left]
  conv_lhs => rw [h2]
  exact he _

theorem keep_next (hr : tpNext G clock log scratch c input out = .ok (0, c', o)) :
    c'.n = c.n ∧ c'.t = c.t ∧ c'.sid = c.sid ∧ c'.eps = c.eps :=
  have hk := (keep_tpNext G hr).1
  ⟨hk.n, hk.t, hk.sid, hk.eps⟩

theorem getD_rcp {sig : B64} {h : Header} {body : Bytes} : (encode sig h body).getD 70 0 = h.rcp := by
  have e := encode_rcp sig h body
  have e' : (((encode sig h body).drop 70).take 1)[0]? = some h.rcp := by rw [e]; rfl
  rw [List.getElem?_take, List.getElem?_drop] at e'
  simp at e'
  rw [List.getD_eq_getElem?_getD, e']
  rfl

/-- Step 0: the recipient of the delivered message. -/
theorem eff0 (g : Good c) (hs : c.step = 0) (hi : i < c.n.toNat)
    (hr : tpNext G clock log scratch c input out = .ok (0, c', o)) : (delivered c' o i).getD 70 0 = idx i := by
  obtain ⟨hil, hol⟩ := tpNext_lengths G g (by omega) hr (by decide) (by decide)
  simp only [hs, inputOf, tpOutputSize] at hil hol
  have hn := g.wf.n_le
  have hw := wp_tp1 (clock := clock) (log := log) (input := input) (s := ⟨c, out, 0, 0, []⟩) (by rw [hil]; simp)
    (by show out.length = _; rw [hol]; simp [msg1Size])
  have hh : tpHandler G clock log scratch input c.step = tp1 clock log input := by rw [hs]; rfl
  rw [← hh] at hw
  have hp := (tpNext_prev_ok G g (by omega) hr).1
  have hkn := (keep_next G hr).1
  have hkl := (keep_tpNext G hr).2
  obtain ⟨s, hE | ⟨-, hk, hq⟩, rfl, rfl⟩ := tpNext_elim G (by omega) hw hr
  · exact hE.elim
  obtain ⟨k, -, hq⟩ := hq i hi
  have hmsg : tpPeerMsg (after c.step 0 s.ctx) s.out.length (UInt8.ofNat i) = (0, some (some (i * 111), 111)) := by
    have hin : ¬ (UInt8.ofNat i ≥ (after c.step 0 s.ctx).n) := by
      rw [hkn, ge_iff_le, UInt8.le_iff_toNat_le, ofNat_peer hi hn]; omega
    unfold tpPeerMsg
    dsimp only
    rw [if_neg hin, hp, hs, ofNat_peer hi hn]
    have := Nat.mul_le_mul_right 111 (show i + 1 ≤ c.n.toNat from hi)
    simp only [hkl, hol, msg1Size]
    rw [if_neg (by omega)]
  rw [delivered_some hmsg, hq]
  unfold tpHeader
  exact getD_rcp

/-- Step 1: the key of peer `i` is the one in its message. -/
theorem eff1 (g : Good c) (hs : c.step = 1) (hi : i < c.n.toNat)
    (hr : tpNext G clock log scratch c input out = .ok (0, c', o)) :
    pkOf c' i = toB32 (slice input (i * 239 + 111) 32) := by
  obtain ⟨hil, hol⟩ := tpNext_lengths G g (by omega) hr (by decide) (by decide)
  simp only [hs, inputOf, tpOutputSize] at hil hol
  have hw := wp_tp4 (clock := clock) (log := log) (input := input) (s := ⟨c, out, 0, 0, []⟩) g.wf (by rw [hil]; simp)
    (by show out.length = _; rw [hol]; rfl)
  have hh : tpHandler G clock log scratch input c.step = tp4 clock log input := by rw [hs]; rfl
  rw [← hh] at hw
  obtain ⟨s, hE | ⟨-, -, -, -, hq, -⟩, rfl, rfl⟩ := tpNext_elim G (by omega) hw hr
  · exact absurd rfl hE.1
  unfold pkOf
  show s.ctx.sigPks.getD i zero32 = _
  rw [hq, List.getD_eq_getElem?_getD, List.getElem?_map, exps_get hi]
  rfl

/-- Steps 2 and 3. -/
theorem eff23 (g : Good c) (hs : c.step = 2 ∨ c.step = 3)
    (hr : tpNext G clock log scratch c input out = .ok (0, c', o)) : c'.sigPks = c.sigPks := by
  obtain ⟨hil, hol⟩ := tpNext_lengths G g (by omega) hr (by decide) (by decide)
  have hw := wp_tp68 (clock := clock) (log := log) (input := input) (s := ⟨c, out, 0, 0, []⟩) g.wf rfl
    (by rw [hil]; rcases hs with h | h <;> simp [h, inputOf])
    (by show _ = out.length; rw [hil, hol]; unfold tpOutputSize inputOf; rcases hs with h | h <;> simp [h, msg4Size, msg5Size] <;> ring)
  have hh : tpHandler G clock log scratch input c.step = tp68 clock log input := by rcases hs with h | h <;> rw [h] <;> rfl
  rw [← hh] at hw
  obtain ⟨s, hE | ⟨-, -, -, -, hq⟩, rfl, rfl⟩ := tpNext_elim G (by omega) hw hr
  · exact absurd rfl hE.1
  · simp only [rest, Prod.mk.injEq] at hq
    exact hq.2.1

theorem slice_flatMap {β : Type} {F : ℕ → List β} {sz m k : ℕ} (hF : ∀ k < m, (F k).length = sz) (hk : k < m) :
    slice ((List.range m).flatMap F) (k * sz) sz = F k := by
  induction m with
  | zero => omega
  | succ m ih =>
    have hl : ((List.range m).flatMap F).length = m * sz := by
      rw [List.length_flatMap, List.map_congr_left (g := fun _ => sz)
        (fun x hx => hF x (by have := List.mem_range.1 hx; omega))]
      simp
    rw [List.range_succ, List.flatMap_append]
    unfold slice
    rcases Nat.lt_or_eq_of_le (Nat.le_of_lt_succ hk) with h | rfl
    · have h1 : (k + 1) * sz ≤ m * sz := Nat.mul_le_mul_right _ h
      rw [Nat.add_mul, Nat.one_mul] at h1
      rw [List.drop_append_of_le_length (by omega), List.take_append_of_le_length (by rw [List.length_drop]; omega)]
      exact ih (fun k hk => hF k (by omega)) h
    · rw [List.drop_append, List.drop_of_length_le (by omega), hl, Nat.sub_self, List.drop_zero, List.nil_append,
        List.flatMap_singleton]
      exact List.take_of_length_le (by rw [hF k (by omega)])

/-- Step 4: the commitments are stored and broadcast. -/
theorem eff4 (g : Good c) (hs : c.step = 4) (hr : tpNext G clock log scratch c input out = .ok (0, c', o)) :
    c'.sigPks = c.sigPks ∧ ∀ j < c.n.toNat,
      dealt c' j = sentCommitments c.t.toNat (slice input (j * (111 + 32 * c.t.toNat)) (111 + 32 * c.t.toNat)) ∧
      commitmentsIn c.t.toNat o j = dealt c' j := by
  obtain ⟨hil, hol⟩ := tpNext_lengths G g (by omega) hr (by decide) (by decide)
  simp only [hs, inputOf, tpOutputSize] at hil hol
  have hb := (eff_bcast G g (by omega) hr).2
  have hbl : bcastLen c = 111 + 32 * c.t.toNat := by unfold bcastLen; simp [hs]
  have hbi : bcastIn c = 111 + 32 * c.t.toNat := by unfold bcastIn; simp [hs, hbl]
  have hkt := (keep_next G hr).2.1
  have hw := wp_tp12 (clock := clock) (log := log) (input := input) (s := ⟨c, out, 0, 0, []⟩) g.wf rfl
    (by rw [hil]; simp [msg6Size])
    (by show out.length = _; rw [hol, hil]; simp [hdrSize, msg6Size])
  have hh : tpHandler G clock log scratch input c.step = tp12 clock log input := by rw [hs]; rfl
  rw [← hh] at hw
  obtain ⟨s, hE | ⟨-, -, -, hq, -, -, hq'⟩, rfl, rfl⟩ := tpNext_elim G (by omega) hw hr
  · exact absurd rfl hE.1
  simp only [rest, Prod.mk.injEq] at hq'
  refine ⟨hq'.2.1, fun j hj => ?_⟩
  have e1 : dealt (after c.step 0 s.ctx) j = commitmentsOf c input j := by
    unfold dealt
    rw [hkt]
    show slice s.ctx.commitments _ _ = _
    rw [hq]
    exact slice_flatMap (fun k _ => toB32s_length _ _) hj
  have e2 : commitmentsOf c input j = sentCommitments c.t.toNat (slice input (j * (111 + 32 * c.t.toNat)) (111 + 32 * c.t.toNat)) := by
    unfold commitmentsOf toB32s sentCommitments
    apply List.map_congr_left
    intro k hk
    have hk := List.mem_range.1 hk
    rw [slice_slice (by omega)]
    congr 1
    show slice (slice input (j * (111 + 32 * c.t.toNat) + 111) (32 * c.t.toNat)) (32 * k) 32 = _
    rw [slice_slice (by omega), Nat.add_assoc]
  refine ⟨e1.trans e2, ?_⟩
  rw [e1, e2]
  unfold commitmentsIn sentCommitments
  apply List.map_congr_left
  intro k hk
  have hk := List.mem_range.1 hk
  have := hb j hj
  rw [hbl, hbi] at this
  rw [← this, slice_slice (by omega), Nat.add_assoc (111 + _)]

/-- Step 5: the encrypted shares are stored and handed on. -/
theorem eff5 (g : Good c) (hs : c.step = 5) (hi : i < c.n.toNat)
    (hr : tpNext G clock log scratch c input out = .ok (0, c', o)) :
    c'.sigPks = c.sigPks ∧ c'.commitments = c.commitments ∧ c'.encShares = input ∧
    (delivered c' o i).length = c.n.toNat * 256 ∧
    ∀ j < c.n.toNat, slice (delivered c' o i) (j * 256) 256 = slice input ((j * c.n.toNat + i) * 256) 256 := by
  obtain ⟨hil, hol⟩ := tpNext_lengths G g (by omega) hr (by decide) (by decide)
  simp only [hs, inputOf, tpOutputSize] at hil hol
  have hroute := fun j hj => C40_routing G clock log scratch c c' input out o g (by omega) hr 256 (by simp [hs]) j i hj hi
  have hd : ∃ off, off + c.n.toNat * 256 ≤ o.length ∧ delivered c' o i = slice o off (c.n.toNat * 256) ∧
      ∀ j < c.n.toNat, slice o (off + j * 256) 256 = slice input (j * (c.n.toNat * 256) + i * 256) 256 := by
    obtain ⟨off, h1, h2, -, -⟩ := hroute i hi
    refine ⟨off, h2, delivered_some h1, fun j hj => ?_⟩
    obtain ⟨off', h1', -, h3, -⟩ := hroute j hj
    rw [h1] at h1'
    simp only [Prod.mk.injEq, Option.some.injEq, true_and, and_true] at h1'
    subst h1'
    exact h3
  have hw := wp_tp14 (clock := clock) (log := log) (input := input) (s := ⟨c, out, 0, 0, []⟩) g.wf rfl
    (by rw [hil]; simp)
    (by show _ = out.length; rw [hil, hol]; simp [msg8Size]; ring)
  have hh : tpHandler G clock log scratch input c.step = tp14 clock log input := by rw [hs]; rfl
  rw [← hh] at hw
  obtain ⟨s, hE | ⟨-, -, -, -, hq, hq'⟩, rfl, rfl⟩ := tpNext_elim G (by omega) hw hr
  · exact absurd rfl hE.1
  simp only [rest, Prod.mk.injEq] at hq'
  refine ⟨hq'.2.1, hq'.2.2.1, hq, ?_⟩
  obtain ⟨off, h1, h2, h3⟩ := hd
  rw [h2]
  refine ⟨slice_length h1, fun j hj => ?_⟩
  have hj' := Nat.mul_le_mul_right 256 (show j + 1 ≤ c.n.toNat from hj)
  rw [slice_slice (by omega), h3 j hj]
  congr 1
  ring

/-- Step 6: the complaints are stored and broadcast. -/
theorem eff6 (g : Good c) (hs : c.step = 6) (hr : tpNext G clock log scratch c input out = .ok (0, c', o)) :
    c'.sigPks = c.sigPks ∧ c'.commitments = c.commitments ∧ c'.encShares = c.encShares ∧
    c'.known = (List.range c.n.toNat).flatMap (complaintsOf c input) ∧
    ((c'.step = 7 ∧ c'.complaintsLen ≠ 0) ∨ (c'.step = 8 ∧ c'.complaintsLen = 0)) := by
  obtain ⟨hil, hol⟩ := tpNext_lengths G g (by omega) hr (by decide) (by decide)
  have g' := good_next G g hr
  have hsz : msg9Size c.n = inputOf c := by simp only [msg9Size, inputOf, hs]; omega
  have hw := wp_tp16 (clock := clock) (log := log) (input := input) (s := ⟨c, out, 0, 0, []⟩) g.wf rfl
    (by rw [hsz, hil, if_neg (by omega)]) (by show out.length = _; rw [hol]; simp [tpOutputSize, hs])
  have hh : tpHandler G clock log scratch input c.step = tp16 clock log input := by rw [hs]; rfl
  rw [← hh] at hw
  obtain ⟨s, hE | ⟨-, -, -, -, hq, -, -, -, h1, h2, h3, h4⟩, rfl, rfl⟩ := tpNext_elim G (by omega) hw hr
  · exact absurd rfl hE.1
  refine ⟨h2, h3, h4, hq, ?_⟩
  have h1 : s.ctx.step = 6 := h1.trans hs
  have e : (after c.step 0 s.ctx).step = s.ctx.step + if s.ctx.complaintsLen = 0 then 2 else 1 := by
    unfold after; rw [if_pos hs]
  rw [e, h1]
  show (_ ∧ s.ctx.complaintsLen ≠ 0) ∨ (_ ∧ s.ctx.complaintsLen = 0)
  by_cases h0 : s.ctx.complaintsLen = 0
  · right; simp [h0]
  · left; simp [h0]

theorem flatten_slices {b : Bytes} {sz : ℕ} (m : ℕ) (hb : m * sz ≤ b.length) :
    ((List.range m).map fun k => slice b (k * sz) sz).flatten = b.take (m * sz) := by
  induction m with
  | zero => simp
  | succ m ih =>
    rw [Nat.add_mul, Nat.one_mul] at hb
    rw [List.range_succ, List.map_append, List.flatten_append, ih (by omega), Nat.add_mul, Nat.one_mul, List.take_add]
    simp [slice]

/-- Step 6: all complaints are in the broadcast. -/
theorem eff6_told (g : Good c) (hs : c.step = 6) (hr : tpNext G clock log scratch c input out = .ok (0, c', o)) :
    Told c' o := by
  obtain ⟨h1, ⟨now, sig, h2, -⟩, h3⟩ := C41_broadcast G clock log scratch c c' input out o g (by omega) hr
  obtain ⟨hil, -⟩ := tpNext_lengths G g (by omega) hr (by decide) (by decide)
  have hn := g.wf.n_le
  have hkn := (keep_next G hr).1
  have hbl : bcastLen c = 112 + c.n.toNat := by simp [bcastLen, hs]
  have hbi : bcastIn c = 112 + c.n.toNat := by simp [bcastIn, hs, hbl]
  have hlen : input.length = c.n.toNat * (112 + c.n.toNat) := by
    rw [hil, if_neg (by omega)]; simp only [inputOf, hs]; ring
  rw [hbl, hbi, flatten_slices _ (by omega), List.take_of_length_le (by omega)] at h2
  have hsl : ∀ a b, slice o (111 + a) b = slice input a b := by
    intro a b
    rw [h2]
    unfold slice
    rw [← List.drop_drop, encode_body]
  have hgd : ∀ a, o.getD (111 + a) 0 = input.getD a 0 := by
    intro a
    have : (slice o (111 + a) 1)[0]? = (slice input a 1)[0]? := by rw [hsl]
    simp only [slice, List.getElem?_take, List.getElem?_drop] at this
    simp at this
    rw [List.getD_eq_getElem?_getD, List.getD_eq_getElem?_getD, this]
  obtain ⟨-, -, -, hk, -⟩ := eff6 G g hs hr
  have h9 : msg9Size c.n = 112 + c.n.toNat := by unfold msg9Size; omega
  intro j hj x
  rw [hkn] at hj ⊢
  have e : accused c.n.toNat o j = slice input (j * msg9Size c.n + 112) (countOf c input j) := by
    unfold accused countAt countOf
    rw [Nat.add_assoc, Nat.add_assoc, hsl, hgd, h9]
  rw [e, hk, List.mem_flatMap]
  constructor
  · intro hx
    exact ⟨j, List.mem_range.2 hj, List.mem_map.2 ⟨x, hx, rfl⟩⟩
  · rintro ⟨j', hj', hx⟩
    obtain ⟨x', hx', e'⟩ := List.mem_map.1 hx
    obtain ⟨e1, e2⟩ := pair_inj e'
    have := idx_inj (List.mem_range.1 hj') hj hn e1
    subst this e2
    exact hx'

/-- Step 8. -/
theorem eff8 (g : Good c) (hs : c.step = 8) (hr : tpNext G clock log scratch c input out = .ok (0, c', o)) :
    c'.sigPks = c.sigPks := by
  obtain ⟨hil, hol⟩ := tpNext_lengths G g (by omega) hr (by decide) (by decide)
  simp only [hs, inputOf, tpOutputSize] at hil hol
  have hw := wp_tp20 (clock := clock) (log := log) (input := input) (s := ⟨c, out, 0, 0, []⟩) g.wf rfl
    (by rw [hil]; simp) (by show out.length = _; rw [hol]; rfl)
  have hh : tpHandler G clock log scratch input c.step = tp20 clock log input := by rw [hs]; rfl
  rw [← hh] at hw
  obtain ⟨s, hE | ⟨-, -, -, ⟨-, -, hq⟩ | ⟨h3, -⟩⟩, rfl, rfl⟩ := tpNext_elim G (by omega) hw hr
  · exact absurd hE.1 (by decide)
  · simp only [rest, Prod.mk.injEq] at hq
    exact hq.2.1
  · exact absurd h3 (by decide)

end Verif.TpDkg
