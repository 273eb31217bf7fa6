import Verif.Proofs.PeerSends
import Verif.Props.Grounds
import Verif.Spec.World

/-!
# Lemmas about the messages of one peer in the input of the trusted party
-/

set_option linter.unusedSectionVars false

namespace Verif.TpDkg

open H Wire Spec.Wire Spec Ristretto Props

section

variable {c : TP} {input : Bytes} {i : ℕ}

theorem sum_take_replicate (n i s : ℕ) (h : i ≤ n) : ((List.replicate n s).take i).sum = i * s := by
  rw [List.take_replicate, Nat.min_eq_left h, List.sum_replicate, smul_eq_mul]

theorem partOf_eq (h7 : c.step ≠ 7) (hi : i < c.n.toNat) : partOf c input i = slice input (i * inputOf c) (inputOf c) := by
  unfold partOf
  rw [tpInputSizes_eq h7]
  dsimp only
  rw [sum_take_replicate _ _ _ (by omega), List.getD_eq_getElem?_getD, List.getElem?_replicate, if_pos hi]
  rfl

theorem partOf_eq7 (g : Good c) (h7 : c.step = 7) (hi : i < c.n.toNat) :
    partOf c input i = slice input (off18 c.known i) (size18 c.known i) := by
  have hs := g.seven h7
  have hl := hs.2.len
  unfold partOf
  rw [tpInputSizes_7 h7 rfl (by have := g.wf.n_pos; omega) g.wf.n_le (by rw [g.wf.complaints]; exact hl) hs.2.nodup hs.2.range]
  dsimp only
  rw [← List.map_take, List.take_range, Nat.min_eq_left (by omega), List.getD_eq_getElem?_getD, List.getElem?_map,
    List.getElem?_range hi]
  rfl

end

variable [Signing] [Hashes] [NoiseCrypto] [Mac]

/-! ## Time -/

/-- The timestamp kept for peer `i` is not before `t0` and not after the readings of its clock from the `lo`-th one on. -/
def Fresh (t0 : UInt64) (clock : ℕ → UInt64) (i lo : ℕ) (c : TP) : Prop :=
  ∃ l, c.lastTs[i]? = some l ∧ t0.toNat ≤ l.toNat ∧ ∀ q, lo ≤ q → l.toNat ≤ (clock q).toNat

theorem Fresh.mono {t0 : UInt64} {clock : ℕ → UInt64} {i lo hi : ℕ} {c : TP} (h : Fresh t0 clock i lo c) (hl : lo ≤ hi) :
    Fresh t0 clock i hi c := by
  obtain ⟨l, h1, h2, h3⟩ := h
  exact ⟨l, h1, h2, fun q hq => h3 q (by omega)⟩

/-- The peer signs with the key of this seed, for this index and this session. -/
structure Signer (c : TP) (p : PeerState) (i : ℕ) (seed : B32) : Prop where
  sid : p.sid = c.sid
  index : p.index = idx i
  sk : p.sigSk = Signing.skOf seed

theorem signedBy_length (p : PeerState) (msgno rcp : UInt8) (now : UInt64) (body : Bytes) :
    (signedBy p msgno rcp now body).length = 111 + body.length := by
  unfold signedBy
  rw [encode_length]

/-- The `m`-th expected message, if it is from peer `i`, is a message signed by it at the reading `f m` of its clock. -/
def Own (clock : ℕ → UInt64) (c : TP) (p : PeerState) (input : Bytes) (i : ℕ) (seed : B32) (lo hi : ℕ) (f : ℕ → ℕ) : Prop :=
  (∀ m e, (expected c input)[m]? = some e → e.i = i → (lo ≤ f m ∧ f m < hi) ∧ e.off + e.len ≤ input.length ∧
    e.len < 2 ^ 32 ∧ e.pk = Signing.pkOf seed ∧ ∃ body : Bytes, 111 + body.length = e.len ∧
      slice input e.off e.len = signedBy p e.msgno e.rcp (clock (f m)) body) ∧
  ∀ m m' e e', (expected c input)[m]? = some e → (expected c input)[m']? = some e' → e.i = i → e'.i = i → m < m' → f m ≤ f m'

variable {t0 eps : UInt64} {clock tpClock : ℕ → UInt64} {c : TP} {p : PeerState} {input : Bytes} {i lo hi : ℕ} {seed : B32}
  {f : ℕ → ℕ}

theorem own_ts {e : Exp} {body : Bytes} {now : UInt64} (hl : 111 + body.length = e.len)
    (hs : slice input e.off e.len = signedBy p e.msgno e.rcp now body) : tsAt input e.off = now := by
  unfold tsAt
  rw [← slice_slice (l := e.len) (by omega), hs]
  unfold slice signedBy
  rw [encode_ts]
  apply UInt64.toNat_inj.1
  rw [htonll_u64 (by simp), beNat_beBytes, Nat.mod_eq_of_lt (by simpa using now.toNat_lt)]

theorem own_previous (hc : GoodClock t0.toNat eps clock) (hf : Fresh t0 clock i lo c)
    (ho : Own clock c p input i seed lo hi f) (hlo : lo ≤ hi) {m : ℕ} {l : UInt64} (hp : Previous c input m i l) :
    t0.toNat ≤ l.toNat ∧ ∀ q, hi ≤ q → l.toNat ≤ (clock q).toNat := by
  obtain ⟨l0, h1, h2, h3⟩ := hf
  rcases hp with rfl | ⟨m', hm', e, he, hei, rfl⟩
  · rw [List.getD_eq_getElem?_getD, h1]
    exact ⟨h2, fun q hq => h3 q (by omega)⟩
  · obtain ⟨hf, -, -, -, body, hl, hs⟩ := ho.1 m' e he hei
    rw [own_ts hl hs]
    exact ⟨hc.lo_le _, fun q hq => UInt64.le_iff_toNat_le.1 (hc.mono _ _ (by omega))⟩

theorem own_fine (hc : GoodClock t0.toNat eps clock) (h0 : 0 < t0.toNat) (hw : t0.toNat + 2 * eps.toNat < 2 ^ 64)
    (he : c.eps = eps) (hs : Signer c p i seed) (hf : Fresh t0 clock i lo c) (ho : Own clock c p input i seed lo hi f) :
    FineMessages tpClock c input i := by
  apply C63_timely_accepted
  intro m e hm hei
  obtain ⟨hr, hb, h32, hpk, body, hl, hsl⟩ := ho.1 m e hm hei
  have hts := own_ts hl hsl
  refine ⟨hb, ⟨_, _, body, hsl, ?_, rfl, ?_, rfl, hs.sid, ?_⟩, ?_⟩
  · rw [hl, UInt32.toNat_ofNat', Nat.mod_eq_of_lt h32]
  · rw [hs.index, hei]
  · rw [hpk, hs.sk]
    exact Signing.verify_sign _ _
  · intro last hp
    have hle : t0.toNat ≤ last.toNat ∧ last.toNat ≤ (clock (f m)).toNat := by
      rw [hei] at hp
      obtain ⟨l0, h1, h2, h3⟩ := hf
      rcases hp with rfl | ⟨m', hm', e', he', hei', rfl⟩
      · rw [List.getD_eq_getElem?_getD, h1]
        exact ⟨h2, h3 _ hr.1⟩
      · obtain ⟨-, -, -, -, body', hl', hsl'⟩ := ho.1 m' e' he' hei'
        rw [own_ts hl' hsl']
        exact ⟨hc.lo_le _, UInt64.le_iff_toNat_le.1 (hc.mono _ _ (ho.2 _ _ _ _ he' hm hei' hei hm'))⟩
    have := hc.le_hi (f m)
    rw [hts, he]
    omega

variable (G : Type) [Ristretto G]

/-- The timestamp kept after a call. -/
theorem fresh_next (hc : GoodClock t0.toNat eps clock) {log : Bool} {scratch : B32} {c' : TP} {out o : Bytes} {r : Int}
    (g : Good c) (h7 : c.step ≠ 7) (hi' : i < c.n.toNat) (hf : Fresh t0 clock i lo c)
    (ho : Own clock c p input i seed lo hi f) (hlo : lo ≤ hi)
    (hr : tpNext G tpClock log scratch c input out = .ok (r, c', o)) : Fresh t0 clock i hi c' := by
  have hg := grounds G h7 hr
  have g' := good_next G g hr
  have hk := (keep_tpNext G hr).1
  have hn : c'.n = c.n := hk.n
  have hl : i < c'.lastTs.length := by rw [g'.wf.lastTs, hn]; exact hi'
  obtain ⟨m, hp⟩ := hg.2 i _ (List.getElem?_eq_getElem hl)
  exact ⟨_, List.getElem?_eq_getElem hl, own_previous hc hf ho hlo hp⟩

/-! ## The messages of one peer -/

theorem get_exps {f : ℕ → Exp} {n m : ℕ} {e : Exp} (h : (exps f n)[m]? = some e) : m < n ∧ e = f m := by
  unfold exps at h
  rw [List.getElem?_map] at h
  cases hm : (List.range n)[m]? with
  | none => rw [hm] at h; cases h
  | some x =>
    rw [hm, Option.map_some, Option.some.injEq] at h
    obtain ⟨h1, h2⟩ := List.getElem?_eq_some_iff.1 hm
    rw [List.length_range] at h1
    rw [List.getElem_range] at h2
    subst h2
    exact ⟨h1, h.symm⟩

/-- One message of the peer is expected. -/
theorem own_single {k : ℕ} {F : ℕ → Exp} (hF : expected c input = exps F c.n.toNat) (hFi : ∀ m, (F m).i = m)
    (hk : lo ≤ k ∧ k < hi) (hb : (F i).off + (F i).len ≤ input.length) (h32 : (F i).len < 2 ^ 32)
    (hpk : (F i).pk = Signing.pkOf seed) {body : Bytes} (hl : 111 + body.length = (F i).len)
    (hs : slice input (F i).off (F i).len = signedBy p (F i).msgno (F i).rcp (clock k) body) :
    Own clock c p input i seed lo hi fun _ => k := by
  refine ⟨fun m e hm hei => ?_, fun _ _ _ _ _ _ _ _ _ => Nat.le_refl k⟩
  rw [hF] at hm
  obtain ⟨-, rfl⟩ := get_exps hm
  rw [hFi] at hei
  subst hei
  exact ⟨hk, hb, h32, hpk, body, hl, hs⟩

/-- The peer sends one message to every peer. -/
theorem own_batch {ks : ℕ → ℕ} {F : ℕ → Exp} {sz : ℕ} {msgno : UInt8}
    (hF : expected c input = exps F (c.n.toNat * c.n.toNat))
    (hFi : ∀ m, F m = ⟨m % c.n.toNat, (m % c.n.toNat * c.n.toNat + m / c.n.toNat) * sz, sz, msgno, idx (m / c.n.toNat),
      pkOf c (m % c.n.toNat), (F m).rstep, (F m).base, (F m).other⟩) (hi' : i < c.n.toNat)
    (hlen : input.length = c.n.toNat * c.n.toNat * sz)
    (hk : ∀ j < c.n.toNat, lo ≤ ks j ∧ ks j < hi) (hmono : ∀ a b, a < b → b < c.n.toNat → ks a < ks b) (h32 : sz < 2 ^ 32)
    (hpk : pkOf c i = Signing.pkOf seed)
    (hs : ∀ j < c.n.toNat, ∃ body : Bytes, 111 + body.length = sz ∧
      slice input ((i * c.n.toNat + j) * sz) sz = signedBy p msgno (idx j) (clock (ks j)) body) :
    Own clock c p input i seed lo hi fun m => ks (m / c.n.toNat) := by
  have hn : 0 < c.n.toNat := by omega
  have hdiv : ∀ m, m < c.n.toNat * c.n.toNat → m / c.n.toNat < c.n.toNat := fun m hm => (Nat.div_lt_iff_lt_mul hn).2 hm
  constructor
  · intro m e hm hei
    rw [hF] at hm
    obtain ⟨lm, rfl⟩ := get_exps hm
    rw [hFi] at hei ⊢
    dsimp only at hei ⊢
    have hd := hdiv m lm
    rw [hei]
    obtain ⟨body, h1, h2⟩ := hs _ hd
    refine ⟨hk _ hd, ?_, h32, hpk, body, h1, h2⟩
    have h3 := mul_add_lt hi' hd
    have : (i * c.n.toNat + m / c.n.toNat + 1) * sz ≤ c.n.toNat * c.n.toNat * sz := Nat.mul_le_mul_right _ h3
    rw [Nat.add_mul, Nat.one_mul] at this
    omega
  · intro m m' e e' hm hm' hei hei' hlt
    rw [hF] at hm hm'
    obtain ⟨-, rfl⟩ := get_exps hm
    obtain ⟨lm, rfl⟩ := get_exps hm'
    rw [hFi] at hei hei'
    dsimp only at hei hei' ⊢
    have h1 := Nat.div_add_mod m c.n.toNat
    have h2 := Nat.div_add_mod m' c.n.toNat
    have h3 : m / c.n.toNat < m' / c.n.toNat := by
      by_contra hc
      have : c.n.toNat * (m' / c.n.toNat) ≤ c.n.toNat * (m / c.n.toNat) := Nat.mul_le_mul_left _ (by omega)
      omega
    exact Nat.le_of_lt (hmono _ _ h3 (hdiv m' lm))

end Verif.TpDkg
