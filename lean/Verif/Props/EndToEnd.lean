import Verif.Spec.Serve
import Verif.Props.Toprf
import Verif.Props.Mpmult
import Verif.Props.Honest
import Verif.Props.Agreement

/-!
# Keys made by the distributed protocol work in the threshold OPRF (C70)
-/

set_option linter.unusedSectionVars false

namespace Verif.Props

open Verif.TpDkg Verif.Mpmult Verif.Spec Verif.Wire Verif.Toprf Polynomial Ristretto

section
variable [Signing] [Hashes] [NoiseCrypto] [Mac] (G : Type) [Ristretto G]

theorem yields_smul (key : ZMod L) (x : Bytes) (hx : x.length ≤ 255) (r : B32) (hr : RandomScalar r)
    (hH : Spec.hashToGroup G Oprf.sha x ≠ 0) (N0 : B32) (y0 : B64) :
    Yields G key x r (enc (key • r.val • Spec.hashToGroup G Oprf.sha x)) N0 y0 := by
  refine ⟨fun hk => unblind_finalize G x hx r hr key hk hH N0 y0, fun hk h => ?_⟩
  obtain ⟨-, -, P, h1, h2⟩ := (C06_unblind_iff G true r _ N0).1 h
  rw [hk, zero_smul, dec_enc] at h1
  cases h1
  exact h2 rfl

/-- Shares on a polynomial answer for its value at 0. -/
theorem serves_of_poly {f : (ZMod L)[X]} {t : ℕ} {shares : List Share} (ht : 1 ≤ t) (hf : f.degree < t)
    (hs : ∀ s ∈ shares, OnPoly f s) (h0 : ∀ s ∈ shares, s.index ≠ 0) :
    Serves G (f.eval 0) t shares := by
  intro x r sel hx hr hH hnd hsub hlen scratch r0 b0 Z0 N0 res0 junk y0
  have hon : ∀ s ∈ sel, OnPoly f s := fun s h => hs s (hsub s h)
  have hidx := onPoly_nodup hon hnd
  have hz : 0 ∉ sel.map (·.index) := by
    intro h
    obtain ⟨s, hm, he⟩ := List.mem_map.1 h
    exact h0 s (hsub s hm) he
  have hne : sel ≠ [] := by
    intro h
    rw [h] at hlen
    simp at hlen
    omega
  have hdeg : f.degree < sel.length := lt_of_lt_of_le hf (by exact_mod_cast hlen)
  have hu := yields_smul G (f.eval 0) x hx r hr hH N0 y0
  refine ⟨_, blind_eq G x hx r hr hH scratch r0 b0, fun hev => ⟨_, ?_, hu⟩, fun peers hp Z => ⟨_, ?_, hu⟩⟩
  · exact C13_thresholdmult G junk scratch Z0 f sel _ hne hidx hz hdeg hon hev
  · exact C16_evaluate_combine G f sel _ Z res0 hne hidx hz hdeg hon peers hp (fun s => (Z s).index)

/-- What the peers of an honest run have shared. -/
def jointKey (S : Setup) : ZMod L := ((List.range S.n.toNat).map fun i => ((S.env i).rnd.coeff 0).val).sum

/-- **C70.** After a run of `tp-dkg.c` in which all follow the protocol, any `t` of the peers answer for the sum of the
secrets that the peers drew. -/
theorem C70_dkg_oprf (S : Setup) (lo : ℕ) (h : S.Honest lo) (net : Net)
    (hrun : (S.start >>= fun s => s.run G S.tpEnv S.env) = .ok net) :
    Serves G (jointKey S) S.t.toNat (net.peers.map (·.share)) := by
  obtain ⟨net', e, -, -, -, -, -, -, -, f, f1, f2, f3⟩ := C48_honest_run_partial G S lo h
  rw [hrun] at e
  cases e
  have ht := h.t_ge
  have e : jointKey S = f.eval 0 := f2.symm
  rw [e]
  refine serves_of_poly G (by omega) f1 (fun s hs => ?_) (fun s hs => ?_)
  · obtain ⟨p, hp, rfl⟩ := List.mem_map.1 hs
    obtain ⟨i, hi⟩ := List.getElem?_of_mem hp
    exact (f3 i p hi).2
  · obtain ⟨p, hp, rfl⟩ := List.mem_map.1 hs
    obtain ⟨i, hi⟩ := List.getElem?_of_mem hp
    have := (f3 i p hi).1
    intro hz
    rw [hz] at this
    simp at this

/-- **C70.** The same with `3hashTDH`: the servers add shares of 0 (polynomial `g`), and the client combines with
`toprf_thresholdmult`. -/
theorem C70_dkg_tdh (S : Setup) (lo : ℕ) (h : S.Honest lo) (net : Net)
    (hrun : (S.start >>= fun s => s.run G S.tpEnv S.env) = .ok net)
    (servers : List (Share × Share)) (hsel : ∀ s ∈ servers, ∃ p ∈ net.peers, s.1 = p.share)
    (hn : (servers.map (·.1)).Nodup) (hlen : S.t.toNat ≤ servers.length) (g : (ZMod L)[X]) (hg : g.degree < servers.length)
    (hg0 : g.eval 0 = 0) (hz : ∀ s ∈ servers, OnPoly g s.2 ∧ s.2.index = s.1.index)
    (x : Bytes) (hx : x.length ≤ 255) (r : B32) (hr : RandomScalar r) (hH : Spec.hashToGroup G Oprf.sha x ≠ 0)
    (ssid : Bytes) (hl : ssid.length ≤ 65535) (scratch r0 b0 N0 : B32) (junk : UInt8) (y0 : B64) :
    ∃ blinded, Oprf.blind G true scratch x (UInt8.ofNat x.length) r r0 b0 = .ok (0, r, blinded) ∧
      ∀ betas : List Share, List.Forall₂ (fun s b => ∃ s1 s2 b0, hash3tdh G true s1 s2 s.1 s.2 blinded ssid
          (UInt16.ofNat ssid.length) b0 = .ok (0, b)) servers betas → (∀ b ∈ betas, b.value ≠ zero32) →
        ∃ β, thresholdmult G junk scratch betas = .ok (0, β) ∧ Yields G (jointKey S) x r β N0 y0 := by
  obtain ⟨net', e, -, -, -, -, -, -, -, f, f1, f2, f3⟩ := C48_honest_run_partial G S lo h
  rw [hrun] at e
  cases e
  have ht := h.t_ge
  have e : jointKey S = f.eval 0 := f2.symm
  rw [e]
  have hon : ∀ s ∈ servers, s.1.index ≠ 0 ∧ OnPoly f s.1 := by
    intro s hs
    obtain ⟨p, hp, he⟩ := hsel s hs
    obtain ⟨i, hi⟩ := List.getElem?_of_mem hp
    rw [he]
    refine ⟨fun hz => ?_, (f3 i p hi).2⟩
    have := (f3 i p hi).1
    rw [hz] at this
    simp at this
  have hidx : (servers.map (·.1.index)).Nodup := by
    have := onPoly_nodup (f := f) (l := servers.map (·.1)) (fun s hs => by
      obtain ⟨s', h1, rfl⟩ := List.mem_map.1 hs
      exact (hon s' h1).2) hn
    rwa [List.map_map] at this
  have hu := yields_smul G (f.eval 0) x hx r hr hH N0 y0
  refine ⟨_, blind_eq G x hx r hr hH scratch r0 b0, fun betas hb hid => ⟨_, ?_, hu⟩⟩
  refine C19_3hashtdh G junk scratch f g servers betas _ ssid hl ?_ hidx ?_
    (lt_of_lt_of_le f1 (by exact_mod_cast hlen)) hg hg0 (fun s hs => ⟨(hon s hs).2, hz s hs⟩) hb hid
  · intro h
    rw [h] at hlen
    simp at hlen
    omega
  · intro h
    obtain ⟨s, hs, he⟩ := List.mem_map.1 h
    exact (hon s hs).1 he

/-- The shares that the same peer got in two honest runs with the same parameters -/
structure Pair (S : Setup) (net net' : Net) (a b : Share) : Prop where
  ex : ∃ (i : ℕ) (p p' : PeerState), net.peers[i]? = some p ∧ net'.peers[i]? = some p' ∧ a = p.share ∧ b = p'.share

/-- **C70.** Two keys made by two honest runs with the same parameters are multiplied with `toprf_mpc_mul_start` and
`toprf_mpc_mul_finish` by at least `2t - 1` of the peers. All calls succeed, and any `t` of the resulting shares answer for
the product. -/
theorem C70_product (S S' : Setup) (lo lo' : ℕ) (h : S.Honest lo) (h' : S'.Honest lo') (net net' : Net)
    (hrun : (S.start >>= fun s => s.run G S.tpEnv S.env) = .ok net)
    (hrun' : (S'.start >>= fun s => s.run G S'.tpEnv S'.env) = .ok net') (ht : S'.t = S.t)
    (dealers : List (Share × Share × (ℕ → B32))) (hidx : (dealers.map (·.1.index)).Nodup)
    (hd : ∀ d ∈ dealers, Pair S net net' d.1 d.2.1)
    (hlen : 2 * S.t.toNat - 1 ≤ dealers.length) (out : List Share) (hout : out.length = S.n.toNat) :
    ∃ deals : List (List Share),
      List.Forall₂ (fun d sh => mulStart d.1 d.2.1 S.n S.t d.2.2 out = .ok (0, sh)) dealers deals ∧
      ∃ result : UInt8 → B32 → Share,
        (∀ (j : UInt8) (scratch : B32), 1 ≤ j.toNat → j.toNat ≤ S.n.toNat → mulFinish scratch
          (List.zipWith (fun d sh => (d.1.index, sh.getD (j.toNat - 1) ⟨0, zero32⟩)) dealers deals) j =
            .ok (result j scratch)) ∧
        ∀ scratch : UInt8 → B32, Serves G (jointKey S * jointKey S') S.t.toNat
          ((List.range S.n.toNat).map fun i => result (UInt8.ofNat (i + 1)) (scratch (UInt8.ofNat (i + 1)))) := by
  obtain ⟨_, e, -, -, -, -, -, -, -, f, f1, f2, f3⟩ := C48_honest_run_partial G S lo h
  rw [hrun] at e
  cases e
  obtain ⟨_, e, -, -, -, -, -, -, -, f', f1', f2', f3'⟩ := C48_honest_run_partial G S' lo' h'
  rw [hrun'] at e
  cases e
  have e : jointKey S = f.eval 0 := f2.symm
  have e' : jointKey S' = f'.eval 0 := f2'.symm
  rw [e, e']
  have t2 := h.t_ge
  have tn := h.t_lt
  have n1 := h.n_le
  rw [ht] at f1'
  have hpair : ∀ d ∈ dealers, d.1.index = d.2.1.index ∧ OnPoly f d.1 ∧ OnPoly f' d.2.1 := by
    intro d hm
    obtain ⟨i, p, p', a1, a2, a3, a4⟩ := (hd d hm).ex
    rw [a3, a4]
    refine ⟨?_, (f3 i p a1).2, (f3' i p' a2).2⟩
    have b1 := (f3 i p a1).1
    have b2 := (f3' i p' a2).1
    exact UInt8.toNat_inj.1 (by omega)
  have hdeal : ∀ l : List (Share × Share × (ℕ → B32)), (∀ d ∈ l, d ∈ dealers) → ∃ deals : List (List Share),
      List.Forall₂ (fun d sh => mulStart d.1 d.2.1 S.n S.t d.2.2 out = .ok (0, sh)) l deals := by
    intro l
    induction l with
    | nil => exact fun _ => ⟨[], .nil⟩
    | cons d l ih =>
      intro hl
      obtain ⟨deals, hds⟩ := ih fun d hm => hl d (List.mem_cons_of_mem _ hm)
      obtain ⟨-, sh, hsh, -⟩ := (C31_mul_start_partial d.1 d.2.1 S.n S.t d.2.2 out (by omega) (by omega) hout).2 (by
        rintro (hx | hx | hx)
        · exact hx (hpair d (hl d (by simp))).1
        · rw [hx] at t2
          exact absurd t2 (by decide)
        · have := UInt8.lt_iff_toNat_lt.1 hx
          omega)
      exact ⟨sh :: deals, .cons hsh hds⟩
  obtain ⟨deals, hdeals⟩ := hdeal dealers fun _ hm => hm
  refine ⟨deals, hdeals, ?_⟩
  obtain ⟨q, q1, q2, q3⟩ := C30_mpc_mul f f' S.t S.n t2 (by omega) (by omega) f1 f1' dealers hidx hpair (by omega) out
    hout deals hdeals
  rw [← q2]
  have hex : ∀ (j : UInt8) (scratch : B32), ∃ s : Share, 1 ≤ j.toNat → j.toNat ≤ S.n.toNat → mulFinish scratch
      (List.zipWith (fun d sh => (d.1.index, sh.getD (j.toNat - 1) ⟨0, zero32⟩)) dealers deals) j = .ok s ∧
      s.index = j ∧ OnPoly q s := by
    intro j scratch
    by_cases hj : 1 ≤ j.toNat ∧ j.toNat ≤ S.n.toNat
    · obtain ⟨s, c⟩ := q3 j scratch hj.1 hj.2
      exact ⟨s, fun _ _ => c⟩
    · exact ⟨⟨0, zero32⟩, fun h1 h2 => absurd ⟨h1, h2⟩ hj⟩
  choose result hres using hex
  refine ⟨result, fun j scratch h1 h2 => (hres j scratch h1 h2).1, fun scratch => ?_⟩
  have hj : ∀ i < S.n.toNat, (UInt8.ofNat (i + 1)).toNat = i + 1 := by
    intro i hi
    rw [UInt8.toNat_ofNat']
    omega
  refine serves_of_poly G (by omega) q1 (fun s hm => ?_) (fun s hm hz => ?_)
  · obtain ⟨i, hi, rfl⟩ := List.mem_map.1 hm
    have hi := List.mem_range.1 hi
    exact (hres _ _ (by rw [hj i hi]; omega) (by rw [hj i hi]; omega)).2.2
  · obtain ⟨i, hi, rfl⟩ := List.mem_map.1 hm
    have hi := List.mem_range.1 hi
    rw [(hres _ _ (by rw [hj i hi]; omega) (by rw [hj i hi]; omega)).2.1] at hz
    have := hj i hi
    rw [hz] at this
    simp at this

/-- **C70.** With cheaters, under the conditions of C62: the peers that have finished answer for one key, unless they have
found a collision of the hash function. The key belongs to the public key that the commitments determine. -/
theorem C70_agreed_oprf (clock : ℕ → UInt64) (log : Bool) (scratch : B32) (c : TP) (calls : List (Bytes × Bytes))
    (hc : TpFinished G clock log scratch c calls) (R : List History) (T : Bytes) (hR : R ≠ [])
    (hfin : ∀ h ∈ R, h.Finished G)
    (hpar : ∀ h ∈ R, h.start.n = c.n ∧ h.start.t = c.t ∧ h.start.transcript = T)
    (hidx : ∀ h ∈ R, 1 ≤ h.final.index.toNat ∧ h.final.index.toNat ≤ c.n.toNat)
    (harr : ∀ h ∈ R, Arrived G clock log scratch c calls h)
    (hgood : ∀ h ∈ R, ∀ m o, callAt G h.clock 4 h.start h.calls = some (m, o) →
      ∀ j < c.n.toNat, WellFormed G (commitmentsIn c.t.toNat m j))
    (hown : ∀ h ∈ R, ∀ m o, callAt G h.clock 4 h.start h.calls = some (m, o) →
      feldmanOk G h.final.index (commitmentsIn c.t.toNat m (h.final.index.toNat - 1))
        (h.final.xshares.getD (h.final.index.toNat - 1) ⟨0, zero32⟩))
    (htop : ∀ h ∈ R, ∀ s ∈ h.final.xshares, s.value.toNat < 2 ^ 255) :
    (∃ h ∈ R, ∃ h' ∈ R, h.final.transcript ≠ h'.final.transcript ∧
      Hashes.generichash32 h.final.transcript = Hashes.generichash32 h'.final.transcript) ∨
    ∃ (m7 : Bytes) (Ys : List G) (key : ZMod L),
      (∀ h ∈ R, ∃ o, callAt G h.clock 4 h.start h.calls = some (m7, o)) ∧
      (List.range c.n.toNat).map (fun j => (commitmentsIn c.t.toNat m7 j).head?) = Ys.map (fun Y => some (enc Y)) ∧
      key • (base : G) = Ys.sum ∧ Serves G key c.t.toNat (R.map (·.final.share)) := by
  have ht2 : 2 ≤ c.t.toNat := by
    obtain ⟨h0, R', rfl⟩ := List.exists_cons_of_ne_nil hR
    have m0 : h0 ∈ h0 :: R' := by simp
    rw [← (hpar h0 m0).2.1]
    exact (hfin h0 m0).wf.t_pos
  rcases C62_one_key_partial G clock log scratch c calls hc R T hR hfin hpar hidx harr hgood hown htop with
    h | ⟨m7, Ys, f, h1, h2, h3, h4, h5, -⟩
  · exact .inl h
  refine .inr ⟨m7, Ys, f.eval 0, h1, h2, h4, serves_of_poly G (by omega) h3 (fun s hs => ?_) fun s hs hz => ?_⟩
  · obtain ⟨h, hm, rfl⟩ := List.mem_map.1 hs
    exact (h5 h hm).2
  · obtain ⟨h, hm, rfl⟩ := List.mem_map.1 hs
    have := (hidx h hm).1
    rw [← (h5 h hm).1, hz] at this
    simp at this

end

section Toy
attribute [local instance] Ristretto.toy Toy.hashes Toy.signing Toy.noise Toy.mac

theorem toyHonest : (toySetup 21).Honest 15 :=
  { toySetup_fair 21 (by decide) (by decide) with later := fun _ _ _ => show (20 : UInt64) ≤ 21 by decide }

/-- The three peers share 1, 2 and 3. -/
theorem toyKey : jointKey (toySetup 21) = 6 := by
  have h : ∀ i : ℕ, i < 3 → (B32.ofNat (i + 1)).val = ((i + 1 : ℕ) : ZMod L) := by
    intro i hi
    interval_cases i <;> decide +kernel
  show (B32.ofNat 1).val + ((B32.ofNat 2).val + ((B32.ofNat 3).val + 0)) = 6
  rw [h 0 (by decide), h 1 (by decide), h 2 (by decide)]
  norm_num

theorem toyKey_ne : jointKey (toySetup 21) ≠ 0 := by
  rw [toyKey]
  decide +kernel

/-- Two of three peers answer for the key 6, and for 36 after they have squared it. -/
example : ∃ net : Net, ((toySetup 21).start >>= fun s => s.run (ZMod L) (toySetup 21).tpEnv (toySetup 21).env) = .ok net ∧
    Serves (ZMod L) 6 2 (net.peers.map (·.share)) ∧ ∃ shares, shares.length = 3 ∧ Serves (ZMod L) 36 2 shares := by
  obtain ⟨net, hr, -, -, -, -, -, hlen, -, f, -, -, f3⟩ := C48_honest_run_partial (ZMod L) (toySetup 21) 15 toyHonest
  refine ⟨net, hr, ?_, ?_⟩
  · have := C70_dkg_oprf (ZMod L) (toySetup 21) 15 toyHonest net hr
    rwa [toyKey] at this
  · have hnd : (net.peers.map (·.share.index)).Nodup := by
      rw [List.nodup_iff_injective_getElem]
      intro a b hab
      have ha := f3 a.1 _ (List.getElem?_eq_getElem (by simpa using a.2))
      have hb := f3 b.1 _ (List.getElem?_eq_getElem (by simpa using b.2))
      simp only [List.getElem_map] at hab
      apply Fin.ext
      have := ha.1
      rw [hab, hb.1] at this
      omega
    obtain ⟨deals, -, result, -, hs⟩ := C70_product (ZMod L) (toySetup 21) (toySetup 21) 15 15 toyHonest toyHonest net net hr
      hr rfl (net.peers.map fun p => (p.share, p.share, fun _ => B32.ofNat 1)) (by simpa [Function.comp_def] using hnd)
      (fun d hd => by
        obtain ⟨p, hp, rfl⟩ := List.mem_map.1 hd
        obtain ⟨i, hi⟩ := List.getElem?_of_mem hp
        exact ⟨i, p, p, hi, hi, rfl, rfl⟩)
      (by rw [List.length_map, hlen]; exact le_refl _) (List.replicate 3 ⟨0, zero32⟩) rfl
    have := hs fun _ => zero32
    rw [toyKey, show (6 : ZMod L) * 6 = 36 by norm_num] at this
    exact ⟨_, by simp [toySetup], this⟩

/-- Servers that meet the hypotheses of `C70_dkg_tdh`, with 0 as shares of 0 -/
example (net : Net)
    (hr : ((toySetup 21).start >>= fun s => s.run (ZMod L) (toySetup 21).tpEnv (toySetup 21).env) = .ok net) :
    ∃ servers : List (Share × Share), 2 ≤ servers.length ∧ (servers.map (·.1)).Nodup ∧
      (∀ s ∈ servers, ∃ p ∈ net.peers, s.1 = p.share) ∧
      ∀ s ∈ servers, OnPoly 0 s.2 ∧ s.2.index = s.1.index := by
  obtain ⟨_, e, -, -, -, -, -, hlen, -, f, -, -, f3⟩ := C48_honest_run_partial (ZMod L) (toySetup 21) 15 toyHonest
  rw [hr] at e
  cases e
  refine ⟨net.peers.map fun p => (p.share, ⟨p.share.index, B32.ofZ 0⟩), ?_, ?_, ?_, ?_⟩
  · rw [List.length_map, hlen]
    decide
  · rw [List.map_map, List.nodup_iff_injective_getElem]
    intro a b hab
    have ha := f3 a.1 _ (List.getElem?_eq_getElem (by simpa using a.2))
    have hb := f3 b.1 _ (List.getElem?_eq_getElem (by simpa using b.2))
    simp only [List.getElem_map, Function.comp_apply] at hab
    apply Fin.ext
    have := ha.1
    rw [hab, hb.1] at this
    omega
  · intro s hs
    obtain ⟨p, hp, rfl⟩ := List.mem_map.1 hs
    exact ⟨p, hp, rfl⟩
  · intro s hs
    obtain ⟨p, hp, rfl⟩ := List.mem_map.1 hs
    refine ⟨?_, rfl⟩
    simp [OnPoly, B32.canonical_ofZ]

end Toy

end Verif.Props
