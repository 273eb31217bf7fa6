import Verif.Proofs.WorldPeer

/-!
# In every reachable state there is nothing wrong with what the peer has sent
-/

set_option linter.unusedSectionVars false

namespace Verif.TpDkg

open H Wire Spec.Wire Spec Ristretto Props

variable [Signing] [Hashes] [NoiseCrypto] [Mac] (G : Type) [Ristretto G]
variable {t0 eps : UInt64} {clock tpClock : ℕ → UInt64} {c c' : TP} {p p' : PeerState} {input out o : Bytes}
  {i j lo hi : ℕ} {seed : B32} {d : Duo} {log : Bool} {scratch : B32} {r : Int} {a : PCall}

/-! ## Reachable states -/

theorem startTp_eps {ctx c : TP} {now eps : UInt64} {n t : UInt8} {name msg0 m : Bytes} {sid seed : B32}
    (h : startTp ctx now eps n t name sid seed msg0 = .ok (0, c, m)) : c.eps = eps := by
  unfold startTp at h
  split at h
  · cases h
  split at h
  · cases h
  split at h
  · cases h
  split at h
  · cases h
  simp only [C.bind_eq_ok] at h
  obtain ⟨_, _, _, _, _, _, _, _, _, _, h⟩ := h
  cases h
  rfl

theorem start_inv (hc : GoodClock t0.toNat eps clock) (h : Duo.Start t0 eps i d) : Duo.Inv G t0 eps clock i d := by
  cases h with
  | mk ctx c now n t name sid seed msg0 m _ _ _ _ _ _ _ _ tp ctx' q now' eps' log ltSk _ _ _ _ _ _ _ _ _ _ p hi h1 h2 w h3 h4 w' =>
  obtain ⟨e1, e2, e3, e4, e5, -, -, -⟩ := start_ok h1
  obtain ⟨dst, hm, k1, -, k3⟩ := startTp_ok h1
  obtain ⟨s1, -, s3, s4, -, s6, -, -, s9, s10, -⟩ := startPeer_ok h3
  have hep : c.eps = eps := startTp_eps h1
  have htr := C47_start ctx c ctx' q now now' eps eps' n t name msg0 m sid seed log ltSk h1 h3
  obtain ⟨cs, ts, -, f2, -, f4, rfl⟩ := setBufs_ok h2
  unfold peerSetBufs at h4
  rw [C.bind_eq_ok] at h4
  obtain ⟨ts', -, h4⟩ := h4
  cases h4
  have hbody : m.drop 111 = (Signing.pkOf seed).toList ++ dst.toList ++ [n, t] := by rw [hm, encode_body]
  have hn : q.n = c.n := by
    rw [s3, e1, List.getD_eq_getElem?_getD, show 175 = 111 + 64 from rfl, ← List.getElem?_drop, hbody,
      List.getElem?_append_right (by simp)]
    simp
  have ht : q.t = c.t := by
    rw [s4, e2, List.getD_eq_getElem?_getD, show 176 = 111 + 65 from rfl, ← List.getElem?_drop, hbody,
      List.getElem?_append_right (by simp)]
    simp
  have hs : q.sid = c.sid := by
    rw [s1, k1]
    unfold slice
    rw [hm, encode_sid, toB32_toList]
  have hlt : ts[i]? = some t0 := by
    have hi' : i < c.n.toNat := by rw [e1]; exact hi
    have := congrArg (fun l => l[i]?) f4
    simpa [List.getElem?_take, hi'] using this
  refine .a0 _ ⟨⟨⟨w, fun _ => e4, fun hs => ?_⟩, w', hn, ht, hs, hep, ?_⟩, s9, s10, e3, s6⟩ rfl rfl ⟨t0, hlt, Nat.le_refl _, ?_⟩ ?_
  · dsimp only at hs; omega
  · show i < c.n.toNat
    rw [e1]; exact hi
  · exact fun q _ => hc.lo_le q
  · exact htr.symm

theorem reach_inv (hc : GoodClock t0.toNat eps clock) (h0 : 0 < t0.toNat) (hw : t0.toNat + 2 * eps.toNat < 2 ^ 64)
    (h : Duo.Reach G t0 eps clock i d) : Duo.Inv G t0 eps clock i d := by
  induction h with
  | start d h => exact start_inv G hc h
  | step d d' _ hs ih =>
    cases hs with
    | tp tpClock log scratch input out c o hp h => exact ih.tp G hc h0 hw hp h
    | peer a p o hin hr h => exact ih.peer G hin hr h

/-! ## Inputs of the wrong length -/

/-- Inputs and outputs of other lengths than announced leave the log as it is. -/
theorem wrong_log (g : Good c) (h9 : c.step ≤ 9)
    (hl : input.length ≠ if c.step = 7 then off18 c.known c.n.toNat else inputOf c * c.n.toNat)
    (h : tpNext G tpClock log scratch c input out = .ok (r, c', o)) : c'.log = c.log := by
  have hw' := wp_wrong G (s := ⟨c, out, 0, 0, []⟩) (clock := tpClock) (log := log) (scratch := scratch) (input := input)
    h9 (tpInputSize_good g) (.inl hl)
  obtain ⟨s, hE | hQ, rfl, rfl⟩ := tpNext_elim G h9 hw' h
  · rw [hE.2]
    rfl
  · exact hQ.elim

/-! ## The steps without judgement -/

theorem Duo.Inv.fine (hc : GoodClock t0.toNat eps clock) (h0 : 0 < t0.toNat) (hw : t0.toNat + 2 * eps.toNat < 2 ^ 64)
    (v : Duo.Inv G t0 eps clock i d) (h9 : d.tp.step ≤ 9) (h7 : d.tp.step ≠ 7)
    (hl : input.length = inputOf d.tp * d.tp.n.toNat) (hp : partOf d.tp input i = d.sent) : Fine G tpClock d.tp input i := by
  obtain ⟨hi, ow, -⟩ := v.owned G h9 h7 hl hp
  refine ⟨owned_fine hc h0 hw v.base ow, fun h6 => ?_, fun h => absurd h h7, fun h => absurd h h7, fun h8 => ?_⟩
  · cases v with
    | a6 seed e hin ky xs df m inc hx tr =>
      have hxs := inc_length inc fun x h => ⟨(hx x h).1, (hx x h).2.1⟩
      obtain ⟨o1, o2⟩ := own_complaints e.base h6 hxs m hp
      have hacc : ∀ k, (hk : k < xs.length) → accusedBy d.tp input i k = xs[k] := by
        intro k hk
        unfold accusedBy
        rw [slice_getD (n := countOf d.tp input i) (by omega), o2, List.getD_eq_getElem?_getD, List.getElem?_eq_getElem hk]
        rfl
      intro k hk
      rw [o1] at hk
      rw [hacc k hk]
      have hx := hx xs[k] (List.getElem_mem hk)
      refine ⟨⟨hx.1, hx.2.1⟩, fun k' hk' => ?_⟩
      rw [hacc k' (by omega)]
      intro he
      have := List.pairwise_iff_getElem.1 inc k' k (by simp; omega) (by simpa using hk) hk'
      simp only [List.getElem_map] at this
      rw [he] at this
      omega
    | b6 seed e hs => exact (stuck e.base hs h7 hl hp (by simp [inputOf, e.ts])).elim
    | a0 e => have := e.ts; omega
    | b1 e => have := e.ts; omega
    | a1 seed e => have := e.ts; omega
    | b seed k hk e => have := e.ts; omega
    | m seed k hk e => have := e.ts; omega
    | a4 seed e => have := e.ts; omega
    | b5 seed e => have := e.ts; omega
    | a5 seed e => have := e.ts; omega
    | s7 seed b ht => omega
    | s8a seed e => have := e.ts; omega
    | s8b seed b ht => omega
    | s8c seed b ht => omega
    | s9a seed b ht => omega
    | s9b seed b ht => omega
    | done b ht => omega
  · cases v with
    | s8c seed b ht hp' hin ky m =>
      obtain ⟨lo, k, f, h1, h2, hs⟩ := m
      have hi : inputOf d.tp = 143 := by simp [inputOf, ht]
      have hsl := part_slice (input := input) (off := 111) (len := 32) h7 b.lt (by rw [hi])
      obtain ⟨hd, e1, e2⟩ := signedBy_split d.peer 20 0 (clock k) (Hashes.generichash32 d.tp.transcript).toList
      unfold sameHash
      rw [← hi, hsl, hp, hs, e2, ← List.append_nil (hd ++ _)]
      exact slice_mid e1 (by simp)
    | s8a seed e hs => exact (stuck e.base hs h7 hl hp (by simp [inputOf, e.ts])).elim
    | s8b seed b ht hp' hs => exact (stuck b hs h7 hl hp (by simp [inputOf, ht])).elim
    | a0 e => have := e.ts; omega
    | b1 e => have := e.ts; omega
    | a1 seed e => have := e.ts; omega
    | b seed k hk e => have := e.ts; omega
    | m seed k hk e => have := e.ts; omega
    | a4 seed e => have := e.ts; omega
    | b5 seed e => have := e.ts; omega
    | a5 seed e => have := e.ts; omega
    | b6 seed e => have := e.ts; omega
    | a6 seed e => have := e.ts; omega
    | s7 seed b ht => omega
    | s9a seed b ht => omega
    | s9b seed b ht => omega
    | done b ht => omega

/-! ## The judgement -/

theorem against_length (hs : Complaints c.n.toNat c) (hi : i < c.n.toNat) (hn : c.n.toNat ≤ 128) (ag : Against i c p) :
    p.against.length = cnt c.known i := by
  have hx := idx_val hi (by omega : c.n.toNat ≤ 254)
  have hp : (p.against.map fun y => pair y (idx i)).Perm (c.known.filter fun u => u.toNat % 256 = i + 1) := by
    rw [List.perm_ext_iff_of_nodup]
    · intro u
      rw [List.mem_map, List.mem_filter]
      constructor
      · rintro ⟨y, hy, rfl⟩
        refine ⟨(ag.2 y).1 hy, ?_⟩
        rw [pair_mod, hx]
        simp
      · rintro ⟨hu, hm⟩
        obtain ⟨a, x, -, -, rfl⟩ := hs.range u hu
        have hm := of_decide_eq_true hm
        rw [pair_mod, ← hx] at hm
        obtain rfl := UInt8.toNat_inj.1 hm
        exact ⟨a, (ag.2 a).2 hu, rfl⟩
    · exact ag.1.map fun _ _ h => (pair_inj h).1
    · exact hs.nodup.filter _
  have := hp.length_eq
  rw [List.length_map] at this
  rw [this]
  unfold cnt
  rw [List.countP_eq_length_filter]

theorem entry_length (p : PeerState) (x : UInt8) : (entry p x).length = 33 := by
  simp [entry]

theorem entries_slice {p : PeerState} {k : ℕ} : ∀ {xs : List UInt8} {x : UInt8}, xs[k]? = some x →
    slice (xs.flatMap (entry p)) (33 * k) 33 = entry p x := by
  induction k with
  | zero =>
    intro xs x h
    cases xs with
    | nil => cases h
    | cons y xs =>
      cases h
      rw [List.flatMap_cons]
      unfold slice
      rw [Nat.mul_zero, List.drop_zero, List.take_append_of_le_length (by rw [entry_length]),
        List.take_of_length_le (by rw [entry_length])]
  | succ k ih =>
    intro xs x h
    cases xs with
    | nil => cases h
    | cons y xs =>
      rw [List.flatMap_cons]
      have := ih (xs := xs) (x := x) (by simpa using h)
      rw [← this]
      unfold slice
      rw [List.drop_append, entry_length, List.drop_of_length_le (by rw [entry_length]; omega), List.nil_append]
      congr 2

theorem Duo.Inv.judged (hc : GoodClock t0.toNat eps clock) (h0 : 0 < t0.toNat) (hw : t0.toNat + 2 * eps.toNat < 2 ^ 64)
    (v : Duo.Inv G t0 eps clock i d) (h7 : d.tp.step = 7) (hl : input.length = off18 d.tp.known d.tp.n.toNat)
    (hp : partOf d.tp input i = d.sent) (hk : ¬ TwoKeys G d.tp input i) : Fine G tpClock d.tp input i := by
  have b := v.base
  have g := b.good
  have hi' := b.lt
  have hn := g.wf.n_le
  have hcs := (g.seven h7).2
  have hx := idx_val hi' (by omega : d.tp.n.toNat ≤ 254)
  rw [partOf_eq7 g h7 hi'] at hp
  have hbound : off18 d.tp.known i + size18 d.tp.known i ≤ input.length := by
    rw [hl, ← off18_succ]
    exact off18_le _ hi'
  obtain ⟨seed, key, acc, an⟩ : ∃ seed, pkOf d.tp i = Signing.pkOf seed ∧ Acc G i d.tp ∧
      (0 < cnt d.tp.known i → Answers G t0 clock i seed d) := by
    cases v with
    | s7 seed b ht key acc an => exact ⟨seed, key, acc, an⟩
    | a0 e => have := e.ts; omega
    | b1 e => have := e.ts; omega
    | a1 seed e => have := e.ts; omega
    | b seed k hk e => have := e.ts; omega
    | m seed k hk e => have := e.ts; omega
    | a4 seed e => have := e.ts; omega
    | b5 seed e => have := e.ts; omega
    | a5 seed e => have := e.ts; omega
    | b6 seed e => have := e.ts; omega
    | a6 seed e => have := e.ts; omega
    | s8a seed e => have := e.ts; omega
    | s8b seed b ht => omega
    | s8c seed b ht => omega
    | s9a seed b ht => omega
    | s9b seed b ht => omega
    | done b ht => omega
  have hacc : FineAccusations G d.tp input i := by
    intro j hj hji k hk' hfor hpair hr
    obtain ⟨-, key', share, w1, w2, w3⟩ := acc _ hpair
    have hxj := idx_val hj (by omega : d.tp.n.toNat ≤ 254)
    rw [hxj, Nat.add_sub_cancel] at w1 w2 w3
    refine hk ⟨j, hj, hji, k, hk', hfor, hr, key', ?_, share.index, share.value, ?_, w2, w3⟩
    · rintro rfl
      obtain ⟨-, value, r2, r3⟩ := hr
      rw [w2, Option.some.injEq, List.cons.injEq] at r2
      have : share.value = value := Vector.toList_inj.1 r2.2
      rw [this] at w3
      exact w3 r3
    · exact Vector.toList_inj.1 (w1.trans hr.1.symm)
  rcases Nat.eq_zero_or_pos (cnt d.tp.known i) with hz | hpos
  · refine ⟨fun m e he hei => ?_, fun h => by omega, fun _ => ⟨fun k hk => by omega, fun k hk => by omega⟩, fun _ => hacc,
      fun h => by omega⟩
    have hm := List.mem_of_getElem? he
    simp only [expected, h7, List.mem_filter] at hm
    rw [hei, hz] at hm
    simp at hm
  · have hsz : size18 d.tp.known i = 111 + 33 * cnt d.tp.known i := if_pos hpos
    have hsl := slice_length (b := input) hbound
    rw [hp, hsz] at hsl
    cases an hpos with
    | six _ hs => rw [hs] at hsl; simp at hsl; omega
    | seven _ hs => rw [hs] at hsl; simp at hsl; omega
    | eight hp' p lo k tail ag sg f hlk df hs =>
      have hcnt := against_length hcs hi' hn ag
      have hbl : (p.against.flatMap (entry p)).length = 33 * cnt d.tp.known i := by
        rw [List.length_flatMap, List.map_congr_left (g := fun _ => 33) (fun x _ => entry_length p x)]
        simp [hcnt, Nat.mul_comm]
      have htl : tail = [] := by
        rw [hs, List.length_append, signedBy_length, hbl] at hsl
        exact List.length_eq_zero_iff.1 (by omega)
      subst htl
      rw [List.append_nil] at hs
      have hcl : cnt d.tp.known i ≤ 128 := by
        have hsub : p.against.map UInt8.toNat ⊆ (List.range d.tp.n.toNat).map (· + 1) := by
          intro y hy
          obtain ⟨x, hx', rfl⟩ := List.mem_map.1 hy
          obtain ⟨a, b, h1, -, e⟩ := hcs.range _ ((ag.2 x).1 hx')
          rw [(pair_inj e).1]
          exact List.mem_map.2 ⟨a.toNat - 1, List.mem_range.2 (by omega), by omega⟩
        have := (List.subperm_of_subset (ag.1.map fun _ _ h => UInt8.toNat_inj.1 h) hsub).length_le
        simp at this
        omega
      have hown : Own clock d.tp p input i seed lo (k + 1) fun _ => k := by
        refine ⟨fun m e he hei => ?_, fun _ _ _ _ _ _ _ _ _ => Nat.le_refl k⟩
        have hm := List.mem_of_getElem? he
        simp only [expected, h7, List.mem_filter] at hm
        obtain ⟨j, -, rfl⟩ := List.mem_map.1 hm.1
        have hei : j = i := hei
        subst hei
        refine ⟨⟨hlk, Nat.lt_succ_self k⟩, ?_, ?_, key, p.against.flatMap (entry p), ?_, ?_⟩
        · show off18 d.tp.known j + (111 + 33 * cnt d.tp.known j) ≤ _
          omega
        · show 111 + 33 * cnt d.tp.known j < 2 ^ 32
          omega
        · rw [hbl]; rfl
        · show slice input (off18 d.tp.known j) (111 + 33 * cnt d.tp.known j) = _
          rw [← hsz, hp, hs]
          rfl
      have hent : ∀ q, (hq : q < p.against.length) →
          slice input (off18 d.tp.known i + 111 + 33 * q) 33 = entry p p.against[q] := by
        intro q hq
        have := entries_slice (p := p) (List.getElem?_eq_getElem hq)
        rw [← this]
        obtain ⟨hd, e1, e2⟩ := signedBy_split p 11 0 (clock k) (p.against.flatMap (entry p))
        rw [Nat.add_assoc, ← slice_slice (l := size18 d.tp.known i) (by omega), hp, hs, e2]
        unfold slice
        rw [List.drop_append, e1, List.drop_of_length_le (by omega), List.nil_append, Nat.add_sub_cancel_left]
      have hfor : ∀ q, (hq : q < p.against.length) → keyFor input d.tp.known i q = p.against[q] := by
        intro q hq
        unfold keyFor
        rw [← Nat.add_zero (_ + 33 * q), slice_getD (n := 33) (by omega), hent q hq]
        rfl
      have hkey : ∀ q, (hq : q < p.against.length) →
          keyOf input d.tp.known i q = (outKey p (p.against[q].toNat - 1)).getD zero32 := by
        intro q hq
        unfold keyOf
        rw [← slice_slice (l := 33) (by omega), hent q hq]
        unfold entry slice
        rw [List.drop_succ_cons, List.drop_zero, List.take_of_length_le (by simp), toB32_toList]
      refine ⟨own_fine hc h0 hw b.eps sg f hown, fun h => by omega, fun _ => ⟨fun q hq => ?_, fun q hq q' hq' e => ?_⟩,
        fun _ => hacc, fun h => by omega⟩
      · have hq' : q < p.against.length := by omega
        dsimp only
        rw [hfor q hq', hkey q hq']
        have hmem := (ag.2 _).1 (List.getElem_mem hq')
        obtain ⟨a, x, ha, -, e⟩ := hcs.range _ hmem
        rw [← (pair_inj e).1] at ha
        obtain ⟨key', d1, d2, d3⟩ := df (p.against[q].toNat - 1) (by omega)
        have hix : idx (p.against[q].toNat - 1) = p.against[q] := by
          apply UInt8.toNat_inj.1
          rw [idx_val (n := d.tp.n.toNat) (by omega) (by omega)]
          omega
        rw [hix] at d2 d3
        refine ⟨hmem, fun hself => ?_, d3, ?_⟩
        · rw [hself] at hmem
          exact (acc _ hmem).1 rfl
        · rw [d1]
          exact d2
      · rw [hfor q (by omega), hfor q' (by omega)] at e
        exact (List.Nodup.getElem_inj_iff ag.1).1 e

end Verif.TpDkg
