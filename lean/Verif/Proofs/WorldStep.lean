import Verif.Proofs.WorldInv
import Verif.Proofs.TpCheck

/-!
# Calls of the trusted party keep the invariant
-/

set_option linter.unusedSectionVars false

namespace Verif.TpDkg

open H Wire Spec.Wire Spec Ristretto Props

variable [Signing] [Hashes] [NoiseCrypto] [Mac] (G : Type) [Ristretto G]
variable {t0 eps : UInt64} {clock tpClock : ℕ → UInt64} {c c' : TP} {p p' : PeerState} {input out o : Bytes}
  {i j lo hi : ℕ} {seed : B32} {d : Duo} {log : Bool} {scratch : B32} {r : Int} {a : PCall}

theorem stuck (b : Base eps i d.tp d.peer) (hs : d.sent = []) (h7 : d.tp.step ≠ 7)
    (hl : input.length = inputOf d.tp * d.tp.n.toNat) (hp : partOf d.tp input i = d.sent) (hpos : 0 < inputOf d.tp) : False := by
  have := part_length h7 b.lt hl
  rw [hp, hs, List.length_nil] at this
  omega

theorem Duo.Inv.base (v : Duo.Inv G t0 eps clock i d) : Base eps i d.tp d.peer := by
  cases v with
  | a0 e => exact e.base
  | b1 e => exact e.base
  | a1 seed e => exact e.base
  | b seed k hk e => exact e.base
  | m seed k hk e => exact e.base
  | a4 seed e => exact e.base
  | b5 seed e => exact e.base
  | a5 seed e => exact e.base
  | b6 seed e => exact e.base
  | a6 seed e => exact e.base
  | s7 seed b => exact b
  | s8a seed e => exact e.base
  | s8b seed b => exact b
  | s8c seed b => exact b
  | s9a seed b => exact b
  | s9b seed b => exact b
  | done b => exact b

theorem owned_1 (e : Early eps i 1 1 d) (sg : Signer d.tp d.peer i seed) {k : ℕ} {npk : B32} {sig : B64}
    (f : Fresh t0 clock i lo d.tp) (hlo : lo ≤ k) (hk : k < d.peer.ticks)
    (hs : d.sent = signedBy d.peer 2 0xff (clock k) ((Signing.pkOf seed).toList ++ npk.toList) ++ sig.toList)
    (hl : input.length = inputOf d.tp * d.tp.n.toNat) (hp : partOf d.tp input i = d.sent) :
    Owned t0 clock i d.peer.ticks d.tp input ∧ toB32 (slice input (i * 239 + 111) 32) = Signing.pkOf seed := by
  have h7 : d.tp.step ≠ 7 := by rw [e.ts]; decide
  have hin : inputOf d.tp = 239 := by simp only [inputOf, e.ts]
  have hi' := e.base.lt
  have hsl := part_slice (input := input) (off := 0) (len := 175) h7 hi' (by rw [hin]; omega)
  have hsk := part_slice (input := input) (off := 111) (len := 32) h7 hi' (by rw [hin]; omega)
  obtain ⟨hd, e1, e2⟩ := signedBy_split d.peer 2 0xff (clock k) ((Signing.pkOf seed).toList ++ npk.toList)
  have hkey : toB32 (slice input (i * 239 + 111) 32) = Signing.pkOf seed := by
    rw [← hin, hsk, hp, hs, e2, ← List.append_assoc, List.append_assoc, slice_mid (i := 111) (k := 32) e1 (by simp), toB32_toList]
  have hbl : ((Signing.pkOf seed).toList ++ npk.toList).length = 64 := by simp
  refine ⟨⟨d.peer, seed, lo, fun _ => k, sg, f, by omega, own_single (F := exp4 input) ?_ (fun m => rfl) ⟨hlo, hk⟩ ?_
    (by show 175 < 2 ^ 32; omega) hkey (body := (Signing.pkOf seed).toList ++ npk.toList) ?_ ?_⟩, hkey⟩
  · simp only [expected, e.ts]
  · show i * 239 + 175 ≤ input.length
    have := Nat.mul_le_mul_right 239 (show i + 1 ≤ d.tp.n.toNat from hi')
    rw [hl, hin]
    omega
  · rw [hbl]; rfl
  · show slice input (i * 239) 175 = signedBy d.peer 2 0xff (clock k) _
    rw [hin, hp, hs, Nat.add_zero] at hsl
    rw [hsl]
    have := signedBy_length d.peer 2 0xff (clock k) ((Signing.pkOf seed).toList ++ npk.toList)
    rw [hbl] at this
    unfold slice
    rw [List.drop_zero, List.take_append_of_le_length (by omega), List.take_of_length_le (by omega)]

/-- The messages of the peer in the input are its own. -/
theorem Duo.Inv.owned (v : Duo.Inv G t0 eps clock i d) (h9 : d.tp.step ≤ 9) (h7 : d.tp.step ≠ 7)
    (hl : input.length = inputOf d.tp * d.tp.n.toNat) (hp : partOf d.tp input i = d.sent) :
    ∃ hi, Owned t0 clock i hi d.tp input ∧ (d.tp.step ≠ 9 → hi = d.peer.ticks) := by
  have hn := v.base.good.wf.n_le
  have ht := v.base.good.wf.t_lt
  cases v with
  | a0 e hin hs f tr =>
    exact ⟨_, owned_none f (by simp only [expected, e.ts]) d.peer e.base.sid, fun _ => rfl⟩
  | b1 e hin hs f tr => exact (stuck e.base hs h7 hl hp (by simp [inputOf, e.ts])).elim
  | a1 seed e hin sg lo k npk sig f hlo hk hs tr =>
    exact ⟨_, (owned_1 e sg f hlo hk hs hl hp).1, fun _ => rfl⟩
  | b seed k hk e hs ky f tr =>
    refine (stuck e.base hs h7 hl hp ?_).elim
    have := e.base.lt
    rcases hk with rfl | rfl | rfl <;> simp [inputOf, e.ts] <;> omega
  | m seed k hk e hin ky m tr =>
    refine ⟨_, owned_many (F := exp68 d.tp) (sz := 159) (msgno := UInt8.ofNat (2 + k)) e.base ky m h7 ?_ hl hp ?_ (fun m => ?_)
      (by omega), fun _ => rfl⟩
    · rcases hk with rfl | rfl <;> simp [inputOf, e.ts]
    · unfold expected; rcases hk with rfl | rfl <;> simp only [e.ts]
    · unfold exp68; rw [e.ts]
  | a4 seed e hin ky body hb m sh tr =>
    obtain ⟨lo, k, f, h1, h2, hs⟩ := m
    have hi : inputOf d.tp = msg6Size d.tp.t := by simp [inputOf, e.ts, msg6Size]
    refine ⟨_, (owned_one (F := exp12 d.tp) (tail := []) ky.signer ky.key f ⟨h1, h2⟩ h7 e.base.lt hl hp
      (by simp only [expected, e.ts]) (fun m => ?_) (body := body) ?_ ?_ ?_).1, fun _ => rfl⟩
    · rw [hi]; rfl
    · simp [inputOf, e.ts, hb]
    · rw [hs, List.append_nil]; rfl
    · simp [inputOf, e.ts]; omega
  | b5 seed e hs => exact (stuck e.base hs h7 hl hp (by have := e.base.lt; simp [inputOf, e.ts]; omega)).elim
  | a5 seed e hin ky m hd op tr =>
    refine ⟨_, owned_many (F := exp14 d.tp) (sz := 256) (msgno := 8) e.base ky m h7 ?_ hl hp ?_ (fun m => rfl)
      (by omega), fun _ => rfl⟩
    · simp [inputOf, e.ts]
    · unfold expected; simp only [e.ts]
  | b6 seed e hs => exact (stuck e.base hs h7 hl hp (by simp [inputOf, e.ts])).elim
  | a6 seed e hin ky xs df m inc hx tr =>
    obtain ⟨lo, k, f, h1, h2, hs⟩ := m
    have hi : inputOf d.tp = msg9Size d.tp.n := by simp [inputOf, e.ts, msg9Size]; omega
    have hxs : xs.length ≤ d.tp.n.toNat := by
      have : (xs.map UInt8.toNat).Nodup := inc.imp fun h => Nat.ne_of_lt h
      have hsub : xs.map UInt8.toNat ⊆ (List.range d.tp.n.toNat).map (· + 1) := by
        intro y hy
        obtain ⟨x, hx', rfl⟩ := List.mem_map.1 hy
        have := hx x hx'
        exact List.mem_map.2 ⟨x.toNat - 1, List.mem_range.2 (by omega), by omega⟩
      have := (List.subperm_of_subset this hsub).length_le
      simpa using this
    refine ⟨_, (owned_one (F := exp16 d.tp) (tail := []) ky.signer ky.key f ⟨h1, h2⟩ h7 e.base.lt hl hp
      (by simp only [expected, e.ts]) (fun m => ?_) (body := _) ?_ (hs.trans (List.append_nil _).symm) ?_).1, fun _ => rfl⟩
    · rw [hi]; rfl
    · rw [hi, msg9Size]; simp; omega
    · simp [inputOf, e.ts]; omega
  | s7 seed b ht => exact absurd ht h7
  | s8a seed e hs => exact (stuck e.base hs h7 hl hp (by simp [inputOf, e.ts])).elim
  | s8b seed b ht hp' hs => exact (stuck b hs h7 hl hp (by simp [inputOf, ht])).elim
  | s8c seed b ht hp' hin ky m =>
    obtain ⟨lo, k, f, h1, h2, hs⟩ := m
    have hi : inputOf d.tp = 143 := by simp [inputOf, ht]
    refine ⟨_, (owned_one (F := exp20 d.tp) (tail := []) ky.signer ky.key f ⟨h1, h2⟩ h7 b.lt hl hp
      (by simp only [expected, ht]) (fun m => ?_) (body := _) ?_ (hs.trans (List.append_nil _).symm) ?_).1, fun _ => rfl⟩
    · rw [hi]; rfl
    · rw [hi]; simp
    · rw [hi]; omega
  | s9a seed b ht hp' hs => exact (stuck b hs h7 hl hp (by simp [inputOf, ht])).elim
  | s9b seed b ht hp' p sg key lo k body tail hb f hk hs =>
    have hi : inputOf d.tp = 113 := by simp [inputOf, ht]
    refine ⟨k + 1, (owned_one (F := exp22 d.tp) (tail := tail) sg key f ⟨hk, by omega⟩ h7 b.lt hl hp
      (by simp only [expected, ht]) (fun m => ?_) (body := body) ?_ hs ?_).1, fun h => absurd ht h⟩
    · rw [hi]; rfl
    · rw [hi, hb]
    · rw [hi]; omega
  | done b ht => omega

/-- After the shares have been stored, the peer can defend itself. -/
theorem defended (hc : GoodClock t0.toNat eps clock) (h0 : 0 < t0.toNat) (hw : t0.toNat + 2 * eps.toNat < 2 ^ 64)
    (e : Early eps i 5 5 d) (ky : Keyed i seed d) (m : Many t0 clock i 8 256 d)
    (op : ∀ j < d.tp.n.toNat, ∃ key value, outKey d.peer j = some key ∧ Opens d.sent j key ⟨idx j, value⟩ ∧
      RightFor G (idx j) (dealt d.tp i) value) (hp : partOf d.tp input i = d.sent)
    (h : tpNext G tpClock log scratch d.tp input out = .ok (0, c, o)) : Defended G i c d.peer := by
  have g := e.base.good
  have hi' := e.base.lt
  have hn := g.wf.n_le
  obtain ⟨k1, k2, k3, k4⟩ := keep_next G h
  obtain ⟨s1, s2, s3, -, -⟩ := eff5 G g e.ts hi' h
  have hin : inputOf d.tp = 256 * d.tp.n.toNat := by simp [inputOf, e.ts]
  have hdl : ∀ j, dealt c j = dealt d.tp j := fun j => by unfold dealt; rw [s2, k2]
  have hpart : ∀ j < d.tp.n.toNat, slice input ((i * d.tp.n.toNat + j) * 256) 256 = slice d.sent (j * 256) 256 := by
    intro j hj
    rw [← hp, ← part_slice (by rw [e.ts]; decide) hi']
    · rw [hin]; congr 1; ring
    · have := Nat.mul_le_mul_right 256 (show j + 1 ≤ d.tp.n.toNat from hj)
      rw [hin]; omega
  obtain ⟨lo, ks, f, h1, h2, h3, h4⟩ := m
  intro j hj
  rw [k1] at hj
  have hx := idx_val hj (by omega : d.tp.n.toNat ≤ 254)
  have hx1 : (idx j).toNat - 1 = j := by omega
  obtain ⟨key, value, o1, ⟨o2, o3⟩, o4⟩ := op j hj
  have hbox : ∀ a b, a + b ≤ 145 → slice (storedBody c i (idx j)) a b = slice d.sent (j * 256 + (111 + a)) b := by
    intro a b hab
    unfold storedBody
    rw [slice_slice hab, s3, k1, hx1, Nat.add_assoc, ← slice_slice (l := 256) (by omega), hpart j hj, slice_slice (by omega)]
  refine ⟨key, o1, ⟨?_, value, ?_, ?_⟩, ?_⟩
  · rw [hbox _ _ (by omega), hbox _ _ (by omega)]
    exact o2
  · rw [hbox _ _ (by omega)]
    exact o3
  · rw [hdl]
    exact o4
  · obtain ⟨body, b1, b2⟩ := h4 j hj
    have hts := hc.lo_le (ks j)
    have hts' := hc.le_hi (ks j)
    let hd : Header := ⟨8, UInt32.ofNat (111 + body.length), d.peer.index, idx j, clock (ks j), d.peer.sid⟩
    refine ⟨Signing.sign d.peer.sigSk hd.encode, hd, body, ?_, ?_, rfl, ?_, rfl, ?_, ?_, ?_, ?_⟩
    · rw [s3, k1, hx1, hpart j hj, b2]
      rfl
    · show (UInt32.ofNat (111 + body.length)).toNat = 256
      rw [b1]
      rfl
    · show d.peer.index.toNat = i + 1
      rw [ky.signer.index, idx_val hi' (by omega)]
    · show d.peer.sid = c.sid
      rw [k3, ky.signer.sid]
    · have := ky.key
      unfold pkOf at this
      rw [s1, this, ky.signer.sk]
      exact Signing.verify_sign _ _
    · show 0 < (clock (ks j)).toNat
      omega
    · show (clock (ks j)).toNat + c.eps.toNat < 2 ^ 64
      rw [k4, e.base.eps]
      omega

/-- The number of complaints is at most that of the peers. -/
theorem inc_length {xs : List UInt8} {n : ℕ} (inc : (xs.map UInt8.toNat).Pairwise (· < ·))
    (hx : ∀ x ∈ xs, 1 ≤ x.toNat ∧ x.toNat ≤ n) : xs.length ≤ n := by
  have : (xs.map UInt8.toNat).Nodup := inc.imp fun h => Nat.ne_of_lt h
  have hsub : xs.map UInt8.toNat ⊆ (List.range n).map (· + 1) := by
    intro y hy
    obtain ⟨x, hx', rfl⟩ := List.mem_map.1 hy
    have := hx x hx'
    exact List.mem_map.2 ⟨x.toNat - 1, List.mem_range.2 (by omega), by omega⟩
  have := (List.subperm_of_subset this hsub).length_le
  simpa using this

theorem slice_getD {b : Bytes} {a k n : ℕ} (h : k < n) : b.getD (a + k) 0 = (slice b a n).getD k 0 := by
  unfold slice
  rw [List.getD_eq_getElem?_getD, List.getD_eq_getElem?_getD, List.getElem?_take, if_pos h, List.getElem?_drop]

/-- The complaints of the peer in the input of the trusted party. -/
theorem own_complaints (b : Base eps i d.tp d.peer) (h6 : d.tp.step = 6) {xs : List UInt8} (hxs : xs.length ≤ d.tp.n.toNat)
    (m : One t0 clock i 9 0xff (UInt8.ofNat xs.length :: (xs ++ List.replicate (d.tp.n.toNat - xs.length) 0)) d)
    (hp : partOf d.tp input i = d.sent) :
    countOf d.tp input i = xs.length ∧ slice input (i * msg9Size d.tp.n + 112) (countOf d.tp input i) = xs := by
  have hi' := b.lt
  have hn := b.good.wf.n_le
  obtain ⟨lo, k, f, h1, h2, hs⟩ := m
  obtain ⟨hd, e1, e2⟩ := signedBy_split d.peer 9 0xff (clock k)
    (UInt8.ofNat xs.length :: (xs ++ List.replicate (d.tp.n.toNat - xs.length) 0))
  have hin : inputOf d.tp = msg9Size d.tp.n := by simp [inputOf, h6, msg9Size]; omega
  have h7 : d.tp.step ≠ 7 := by omega
  rw [e2] at hs
  have hc : countOf d.tp input i = xs.length := by
    have := part_slice (input := input) (off := 111) (len := 1) h7 hi' (by rw [hin, msg9Size]; omega)
    rw [hp, hs, show hd ++ UInt8.ofNat xs.length :: (xs ++ List.replicate (d.tp.n.toNat - xs.length) 0) =
      hd ++ [UInt8.ofNat xs.length] ++ (xs ++ List.replicate (d.tp.n.toNat - xs.length) 0) by simp, slice_mid (k := 1) e1 rfl] at this
    unfold countOf
    rw [← hin, ← Nat.add_zero (i * _ + 111), slice_getD (n := 1) (by omega), this]
    show (UInt8.ofNat xs.length).toNat = _
    rw [UInt8.toNat_ofNat', Nat.mod_eq_of_lt (by omega)]
  refine ⟨hc, ?_⟩
  rw [hc, ← hin, part_slice h7 hi' (by rw [hin, msg9Size]; omega), hp, hs,
    show hd ++ UInt8.ofNat xs.length :: (xs ++ List.replicate (d.tp.n.toNat - xs.length) 0) =
      (hd ++ [UInt8.ofNat xs.length]) ++ xs ++ List.replicate (d.tp.n.toNat - xs.length) 0 by simp]
  exact slice_mid (by simp [e1]) rfl

/-- Calls of the trusted party keep the invariant. -/
theorem Duo.Inv.tp (hc : GoodClock t0.toNat eps clock) (h0 : 0 < t0.toNat) (hw : t0.toNat + 2 * eps.toNat < 2 ^ 64)
    (v : Duo.Inv G t0 eps clock i d) (hp : partOf d.tp input i = d.sent)
    (h : tpNext G tpClock log scratch d.tp input out = .ok (0, c, o)) :
    Duo.Inv G t0 eps clock i ⟨c, d.peer, delivered c o i, []⟩ := by
  have b := v.base
  have g := b.good
  have hi' := b.lt
  have hn := g.wf.n_le
  have b' := b.tp G h
  obtain ⟨h9, hst⟩ := tpNext_step_ok G h
  have h7 := tpNext_not7 G g (by have := b.wf.t_pos; rw [b.t] at this; omega) h
  have hl := (tpNext_lengths G g h9 h (by decide) (by decide)).1
  rw [if_neg h7] at hl
  obtain ⟨hi, ow, hhi⟩ := v.owned G h9 h7 hl hp
  have fr := owned_next G hc b h7 ow h
  obtain ⟨k1, k2, k3, k4⟩ := keep_next G h
  have htr := tpNext_transcript G g h
  have hdl : ∀ {c}, c.commitments = d.tp.commitments → c.t = d.tp.t → ∀ j, dealt c j = dealt d.tp j :=
    fun h1 h2 j => by unfold dealt; rw [h1, h2]
  by_cases h99 : 99 ≤ c.step
  · exact .done _ b' (by show 9 < c.step; omega)
  cases v with
  | a0 e hin hs f tr =>
    have hts := e.ts
    cases hhi (by omega)
    refine .b1 _ ⟨b', e.len, e.mine, by show c.step = 1; omega, e.ps⟩ (eff0 G g e.ts hi' h) rfl fr ?_
    rw [hts] at htr
    exact htr.trans tr
  | b1 e hin hs f tr => exact (stuck e.base hs h7 hl hp (by simp [inputOf, e.ts])).elim
  | a1 seed e hin sg lo k npk sig f hlo hk hs tr =>
    have hts := e.ts
    cases hhi (by omega)
    refine .b _ seed 1 (.inl rfl) ⟨b', e.len, e.mine, by show c.step = 2; omega, e.ps⟩ rfl ⟨sg.tp G h, ?_⟩ fr ?_
    · rw [← (owned_1 e sg f hlo hk hs hl hp).2]
      exact eff1 G g hts hi' h
    · unfold TrB
      dsimp only
      rw [e.ps, htr, hts, (eff_bcast G g (.inl hts) h).1 i hi', tr]
  | b seed k hk e hs ky f tr =>
    refine (stuck e.base hs h7 hl hp ?_).elim
    rcases hk with rfl | rfl | rfl <;> simp [inputOf, e.ts] <;> omega
  | m seed k hk e hin ky m tr =>
    have hts := e.ts
    cases hhi (by omega)
    refine .b _ seed k (by omega) ⟨b', e.len, e.mine, by show c.step = k + 1; omega, e.ps⟩ rfl
      (ky.tp G h (eff23 G g (by omega) h)) fr ?_
    unfold TrB
    dsimp only
    rw [e.ps, htr, hts, tr]
    rcases hk with rfl | rfl <;> rfl
  | a4 seed e hin ky body hb m sh tr =>
    have hts := e.ts
    cases hhi (by omega)
    obtain ⟨s1, s2⟩ := eff4 G g hts h
    have hd := (eff_bcast G g (by omega) h).1 i hi'
    refine .b5 _ seed ⟨b', e.len, e.mine, by show c.step = 5; omega, e.ps⟩ rfl (ky.tp G h s1) fr ?_ ?_ ?_
    · show SharesFor G (dealt c i) c d.peer
      have hpt := partOf_eq (input := input) h7 hi'
      have hin : inputOf d.tp = 111 + 32 * d.tp.t.toNat := by simp [inputOf, hts]
      rw [hin] at hpt
      rw [(s2 i hi').1, ← hpt, hp]
      unfold SharesFor at sh ⊢
      rw [k1]
      exact sh
    · show ∀ j < c.n.toNat, commitmentsIn c.t.toNat (delivered c o i) j = dealt c j
      rw [k1, k2, hd]
      exact fun j hj => (s2 j hj).2
    · unfold TrB
      dsimp only
      rw [e.ps, htr, hts, hd, tr]
  | b5 seed e hs => exact (stuck e.base hs h7 hl hp (by simp [inputOf, e.ts]; omega)).elim
  | a5 seed e hin ky m hd op tr =>
    have hts := e.ts
    cases hhi (by omega)
    obtain ⟨s1, s2, s3, -, s5⟩ := eff5 G g hts hi' h
    refine .b6 _ seed ⟨b', e.len, e.mine, by show c.step = 6; omega, e.ps⟩ rfl (ky.tp G h s1) fr ?_
      (defended (d := d) G hc h0 hw e ky m op hp h) ?_ ?_
    · obtain ⟨c4, a4, o4, q1, q2, q3, q4, q5, q6, q7⟩ := hd
      refine ⟨c4, a4, o4, q1, q2, q3, q4, by rw [q5, k1], by rw [q6, k2], ?_⟩
      dsimp only
      rw [k1, k2]
      intro j hj
      rw [hdl s2 k2]
      exact q7 j hj
    · dsimp only
      rw [k1, s3]
      exact s5
    · unfold TrB
      dsimp only
      rw [e.ps, htr, hts, tr]
      rfl
  | b6 seed e hs => exact (stuck e.base hs h7 hl hp (by simp [inputOf, e.ts])).elim
  | a6 seed e hin ky xs df m inc hx tr =>
    have hts := e.ts
    cases hhi (by omega)
    obtain ⟨s1, s2, s3, s4, s5⟩ := eff6 G g hts h
    have hxs := inc_length inc fun x h => ⟨(hx x h).1, (hx x h).2.1⟩
    obtain ⟨o1, o2⟩ := own_complaints b hts hxs m hp
    have htold := eff6_told G g hts h
    have hdeliv := (eff_bcast G g (by omega) h).1 i hi'
    have hst : ∀ j x, storedBody c j x = storedBody d.tp j x := fun j x => by unfold storedBody; rw [s3, k1]
    have hmine : ∀ x, pair (idx i) x ∈ c.known → x ∈ xs := by
      intro x hk
      rw [s4, List.mem_flatMap] at hk
      obtain ⟨j, hj, hk⟩ := hk
      obtain ⟨x', hx', e'⟩ := List.mem_map.1 hk
      obtain ⟨e1, rfl⟩ := pair_inj e'
      have := idx_inj (List.mem_range.1 hj) hi' hn e1
      subst this
      rw [o2] at hx'
      exact hx'
    have hdf : Defended G i c d.peer := by
      intro j hj
      rw [k1] at hj
      obtain ⟨key, q1, ⟨q2, q3⟩, q4⟩ := df j hj
      refine ⟨key, q1, ⟨by rw [hst]; exact q2, by rw [hst, hdl s2 k2]; exact q3⟩, ?_⟩
      unfold Stored at q4 ⊢
      rw [s1, s3, k1, k3, k4]
      exact q4
    rcases s5 with ⟨s5, s6⟩ | ⟨s5, s6⟩
    · refine .s7 _ seed b' s5 (ky.tp G h s1 (inbox := []) (sent := [])).key ?_ fun _ => .six e.ps rfl e.len e.mine ?_
        (ky.signer.tp G h) fr hdf
      · intro x hk
        obtain ⟨-, -, w1, key, share, w2, w3, w4⟩ := hx x (hmine x hk)
        refine ⟨w1, key, share, ?_, ?_, ?_⟩
        · show (Mac.auth key (slice (storedBody c _ _) 64 49)).toList = slice (storedBody c _ _) 113 32
          rw [hst]; exact w2
        · show NoiseCrypto.aeadDec key 0 [] (slice (storedBody c _ _) 64 49) = _
          rw [hst]; exact w3
        · show ¬ RightFor G _ (dealt c _) _
          rw [hdl s2 k2]; exact w4
      · show Told c (delivered c o i)
        rw [hdeliv]
        exact htold
    · refine .s8a _ seed ⟨b', e.len, e.mine, s5, e.ps⟩ rfl (ky.tp G h s1) fr ?_ ?_
      · dsimp only
        intro j hj
        rw [hdeliv]
        apply List.eq_nil_iff_forall_not_mem.2
        intro x hx
        have := (htold j hj x).1 hx
        unfold TP.known at this
        rw [s6] at this
        cases this
      · unfold TrB
        dsimp only
        rw [e.ps, htr, hts, hdeliv, tr]
  | s7 seed b ht => exact absurd ht h7
  | s8a seed e hs => exact (stuck e.base hs h7 hl hp (by simp [inputOf, e.ts])).elim
  | s8b seed b ht hp' hs => exact (stuck b hs h7 hl hp (by simp [inputOf, ht])).elim
  | s8c seed b ht hp' hin ky m =>
    cases hhi (by omega)
    exact .s9a _ seed b' (by show c.step = 9; omega) hp' rfl (ky.tp G h (eff8 G g ht h)) fr
  | s9a seed b ht hp' hs => exact (stuck b hs h7 hl hp (by simp [inputOf, ht])).elim
  | s9b seed b ht => exact .done _ b' (by show 9 < c.step; omega)
  | done b ht => omega

end Verif.TpDkg
