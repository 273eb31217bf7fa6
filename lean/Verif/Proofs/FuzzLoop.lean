import Verif.Model.FuzzLoop
import Verif.Proofs.TpCheck
import Verif.Proofs.WorldTp

/-!
# Lemmas about the fuzzing of the trusted party
-/

namespace Verif.TpDkg.Driver

open Wire

theorem sendAll_none {tp : TP} {out : Bytes} : ∀ (m i : ℕ) (nets : List Chan) (x : Option (List Chan)),
    sendAll tp out m i nets = .ok x → (∃ j, i ≤ j ∧ j < i + m ∧ (tpPeerMsg tp out.length (UInt8.ofNat j)).1 ≠ 0) → x = none
  | 0, _, _, _, _, ⟨_, h1, h2, _⟩ => by omega
  | m + 1, i, nets, x, h, ⟨j, h1, h2, h3⟩ => by
    unfold sendAll at h
    split at h
    · rename_i r off len he
      by_cases hr : r ≠ 0
      · rw [if_pos hr] at h; cases h; rfl
      · rw [if_neg hr] at h
        have hj : i ≠ j := by
          rintro rfl
          rw [he] at h3
          exact hr h3
        have hk : ∀ msg, (do
            let c ← ld nets i
            let c ← send c msg
            let nets ← st nets i c
            sendAll tp out m (i + 1) nets) = .ok x → x = none := by
          intro msg h
          obtain ⟨c, -, h⟩ := C.bind_eq_ok.1 h
          obtain ⟨c', -, h⟩ := C.bind_eq_ok.1 h
          obtain ⟨nets', -, h⟩ := C.bind_eq_ok.1 h
          exact sendAll_none m (i + 1) nets' x h ⟨j, by omega, by omega, h3⟩
        dsimp only at h
        cases off with
        | none => exact hk _ h
        | some off =>
          obtain ⟨msg, -, h⟩ := C.bind_eq_ok.1 h
          exact hk _ h
    · cases h; rfl

theorem st_length {α : Type} {l l' : List α} {i : ℕ} {a : α} (h : st l i a = .ok l') : l'.length = l.length := by
  unfold st at h
  split at h
  · cases h
    exact List.length_set
  · cases h

theorem sendAll_length {tp : TP} {out : Bytes} : ∀ (m i : ℕ) (nets nets' : List Chan),
    sendAll tp out m i nets = .ok (some nets') → nets'.length = nets.length
  | 0, _, _, _, h => by unfold sendAll at h; cases h; rfl
  | m + 1, i, nets, nets', h => by
    unfold sendAll at h
    split at h
    · rename_i r off len he
      split at h
      · cases h
      · have hk : ∀ msg, (do
            let c ← ld nets i
            let c ← send c msg
            let nets ← st nets i c
            sendAll tp out m (i + 1) nets) = .ok (some nets') → nets'.length = nets.length := by
          intro msg h
          obtain ⟨c, -, h⟩ := C.bind_eq_ok.1 h
          obtain ⟨c', -, h⟩ := C.bind_eq_ok.1 h
          obtain ⟨nets1, h1, h⟩ := C.bind_eq_ok.1 h
          exact (sendAll_length m (i + 1) nets1 nets' h).trans (st_length h1)
        dsimp only at h
        cases off with
        | none => exact hk _ h
        | some off =>
          obtain ⟨msg, -, h⟩ := C.bind_eq_ok.1 h
          exact hk _ h
    · cases h

/-- The message for the last peer does not fit in a buffer that is smaller than the output of the step. -/
theorem peerMsg_short {tp : TP} {size : ℕ} (hp : tp.prev = 2 ∨ tp.prev = 5) (hn : 1 ≤ tp.n.toNat)
    (hs : size < tpOutputSize { tp with step := tp.prev }) :
    (tpPeerMsg tp size (UInt8.ofNat (tp.n.toNat - 1))).1 ≠ 0 := by
  have hlt : tp.n.toNat < 256 := tp.n.toNat_lt
  have hu : (UInt8.ofNat (tp.n.toNat - 1)).toNat = tp.n.toNat - 1 := by
    rw [UInt8.toNat_ofNat', Nat.mod_eq_of_lt (by norm_num; omega)]
  have hge : ¬ UInt8.ofNat (tp.n.toNat - 1) ≥ tp.n := by
    rw [ge_iff_le, UInt8.le_iff_toNat_le, hu]; omega
  obtain ⟨n, hn'⟩ : ∃ n, tp.n.toNat = n + 1 := ⟨tp.n.toNat - 1, by omega⟩
  unfold tpPeerMsg
  rw [if_neg hge]
  dsimp only
  rw [hu]
  rcases hp with hp | hp
  · rw [hp] at hs ⊢
    have hs' : size < msg4Size * tp.n.toNat * tp.n.toNat := hs
    have h : size < (tp.n.toNat - 1) * msg4Size * tp.n.toNat + msg4Size * tp.n.toNat := by
      rw [hn'] at hs' ⊢
      rw [Nat.add_sub_cancel]
      simp only [msg4Size] at *
      nlinarith
    show (if size < (tp.n.toNat - 1) * msg4Size * tp.n.toNat + msg4Size * tp.n.toNat then (2 : Int) else 0) ≠ 0
    rw [if_pos h]
    decide
  · rw [hp] at hs ⊢
    have hs' : size < tp.n.toNat * tp.n.toNat * msg8Size := hs
    have h : size < (tp.n.toNat - 1) * tp.n.toNat * msg8Size + tp.n.toNat * msg8Size := by
      rw [hn'] at hs' ⊢
      rw [Nat.add_sub_cancel]
      simp only [msg8Size] at *
      nlinarith
    show (if size < (tp.n.toNat - 1) * tp.n.toNat * msg8Size + tp.n.toNat * msg8Size then (2 : Int) else 0) ≠ 0
    rw [if_pos h]
    decide

namespace Build

variable {B : Build}

@[simp] theorem buf_length (n : ℕ) : (B.buf n).length = n := by simp [buf]

/-- The library moves on step by step as long as it returns 0, on a set of states that it does not leave. -/
structure Regular (B : Build) (I : TP → Prop) : Prop where
  next : ∀ {c c' : TP} {input out o : Bytes}, I c → c.step ≤ 5 → B.tpNext c input out = .ok (0, c', o) →
    I c' ∧ c'.prev = c.step ∧ c'.step = c.step + 1 ∧ c'.n = c.n ∧ c'.t = c.t ∧ o.length = out.length

theorem pass_length : ∀ (i : ℕ) (ps : List PeerState) (cs : List Chan) (net : Chan) {r : Int} {ps' : List PeerState}
    {cs' : List Chan} {net' : Chan}, B.pass i ps cs net = .ok (r, ps', cs', net') → ps'.length = ps.length
  | i, p :: ps, c :: cs, net, r, ps', cs', net', h => by
    unfold pass at h
    obtain ⟨⟨input, c1⟩, -, h⟩ := C.bind_eq_ok.1 h
    obtain ⟨⟨r1, p1, out⟩, -, h⟩ := C.bind_eq_ok.1 h
    dsimp only at h
    split at h
    · cases h; rfl
    · obtain ⟨net1, -, h⟩ := C.bind_eq_ok.1 h
      obtain ⟨⟨r2, ps2, cs2, net2⟩, h2, h⟩ := C.bind_eq_ok.1 h
      cases h
      rw [List.length_cons, List.length_cons, pass_length (i + 1) ps cs net1 h2]
  | _, [], _, _, _, _, _, _, h => by unfold pass at h; cases h; rfl
  | _, _ :: _, [], _, _, _, _, _, h => by unfold pass at h; cases h; rfl

theorem inner_keeps : ∀ (k : ℕ) (v : Vars) {v' : Vars}, B.inner k v = .ok (0, v') →
    v'.tp = v.tp ∧ v'.peers.length = v.peers.length
  | 0, _, _, h => by unfold inner at h; cases h
  | k + 1, v, v', h => by
    unfold inner at h
    split at h
    · cases h; exact ⟨rfl, rfl⟩
    · obtain ⟨p, -, h⟩ := C.bind_eq_ok.1 h
      split at h
      · cases h; exact ⟨rfl, rfl⟩
      · obtain ⟨⟨r, ps, cs, net⟩, hp, h⟩ := C.bind_eq_ok.1 h
        dsimp only at h
        split at h
        · rename_i hr
          obtain ⟨ps', -, h⟩ := C.bind_eq_ok.1 h
          cases h
          exact absurd rfl hr
        · obtain ⟨h1, h2⟩ := inner_keeps k _ h
          exact ⟨h1, h2.trans (pass_length _ _ _ _ hp)⟩

/-- What one pass of the rest of the protocol does. -/
theorem rest_elim {out : Bytes} {k : ℕ} {v : Vars} {o : Outcome} (h : B.rest out (k + 1) v = .ok o) :
    (tpNotDone v.tp = false ∧ o = .over v) ∨
    (tpNotDone v.tp = true ∧ (sendAll v.tp out v.tp.n.toNat 0 v.nets = .ok none ∧ o = .returns 1 ∨
      ∃ nets, sendAll v.tp out v.tp.n.toNat 0 v.nets = .ok (some nets) ∧
        ((∃ r, r ≠ 0 ∧ o = .returns r) ∨
          ∃ (v1 : Vars) (tp : TP) (net : Chan) (input o' : Bytes), v1.tp = v.tp ∧ v1.peers.length = v.peers.length ∧
            B.tpNext v.tp input (B.buf (tpOutputSize v.tp)) = .ok (0, tp, o') ∧
            B.rest out k { v1 with tp, net } = .ok o))) := by
  unfold rest at h
  split at h
  · rename_i hd
    cases h
    exact .inl ⟨hd, rfl⟩
  · rename_i hd
    refine .inr ⟨by simpa using hd, ?_⟩
    obtain ⟨x, hx, h⟩ := C.bind_eq_ok.1 h
    cases x with
    | none => cases h; exact .inl ⟨hx, rfl⟩
    | some nets =>
      refine .inr ⟨nets, hx, ?_⟩
      dsimp only at h
      obtain ⟨⟨r, v1⟩, hi, h⟩ := C.bind_eq_ok.1 h
      dsimp only at h
      by_cases hr : r ≠ 0
      · rw [if_pos hr] at h
        cases h
        exact .inl ⟨r, hr, rfl⟩
      · rw [if_neg hr] at h
        rw [not_not] at hr
        subst hr
        obtain ⟨h1, h2⟩ := inner_keeps _ _ hi
        obtain ⟨size, -, h⟩ := C.bind_eq_ok.1 h
        obtain ⟨⟨input, net⟩, -, h⟩ := C.bind_eq_ok.1 h
        obtain ⟨⟨r, tp, o'⟩, ht, h⟩ := C.bind_eq_ok.1 h
        dsimp only at h
        by_cases hr : r ≠ 0
        · rw [if_pos hr] at h
          obtain ⟨ps, -, h⟩ := C.bind_eq_ok.1 h
          cases h
          refine .inl ⟨_, ?_, rfl⟩
          split
          · decide
          · exact hr
        · rw [if_neg hr] at h
          rw [not_not] at hr
          subst hr
          rw [h1] at ht
          exact .inr ⟨v1, tp, net, input, o', h1, h2, ht, h⟩

theorem rest_length {out : Bytes} : ∀ (k : ℕ) (v : Vars) {v' : Vars}, B.rest out k v = .ok (.over v') →
    v'.peers.length = v.peers.length
  | 0, _, _, h => by unfold rest at h; cases h
  | k + 1, v, v', h => by
    rcases rest_elim h with ⟨-, h⟩ | ⟨-, ⟨-, h⟩ | ⟨_, -, ⟨_, -, h⟩ | ⟨v1, tp, net, _, _, -, h2, -, h⟩⟩⟩
    · cases h; rfl
    · cases h
    · cases h
    · exact (rest_length k _ h).trans h2

/-- The protocol does not come to an end if the output of the next step is larger. -/
theorem rest_stale {I : TP → Prop} (hB : Regular B I) {out : Bytes} {s : ℕ} (hs : s = 1 ∨ s = 4) {v : Vars} (hI : I v.tp)
    (hstep : v.tp.step = s + 1) (hn : 1 ≤ v.tp.n.toNat) (hl : out.length < tpOutputSize { v.tp with step := s + 1 })
    {k : ℕ} {o : Outcome} (h : B.rest out k v = .ok o) : ∃ r, r ≠ 0 ∧ o = .returns r := by
  cases k with
  | zero => unfold rest at h; cases h
  | succ k =>
    rcases rest_elim h with ⟨hd, -⟩ | ⟨-, ⟨-, h⟩ | ⟨_, -, h | ⟨v1, tp, net, _, _, -, -, ht, h⟩⟩⟩
    · exfalso
      unfold tpNotDone at hd
      rw [hstep] at hd
      have : ¬ s + 1 < 10 := by simpa using hd
      omega
    · exact ⟨1, by decide, h⟩
    · exact h
    · obtain ⟨hI', e1, e2, e3, e4, -⟩ := hB.next hI (by omega) ht
      cases k with
      | zero => unfold rest at h; cases h
      | succ k =>
        rcases rest_elim h with ⟨hd, -⟩ | ⟨-, ⟨-, h⟩ | ⟨nets, hx, -⟩⟩
        · exfalso
          unfold tpNotDone at hd
          dsimp only at hd
          rw [e2, hstep] at hd
          have : ¬ s + 1 + 1 < 10 := by simpa using hd
          omega
        · exact ⟨1, by decide, h⟩
        · exfalso
          dsimp only at hx
          have := sendAll_none _ _ _ _ hx ⟨tp.n.toNat - 1, Nat.zero_le _, by rw [e3]; omega,
            peerMsg_short (by rw [e1, hstep]; omega) (by rw [e3]; exact hn) (by
              rw [e1, hstep]
              rcases hs with rfl | rfl <;> (dsimp only [tpOutputSize] at hl ⊢; rw [e3]; exact hl))⟩
          cases this

theorem innerP_keeps : ∀ (k : ℕ) (v : Vars) {r : Int} {v' : Vars}, B.innerP k v = .ok (r, v') →
    v'.peers.length = v.peers.length
  | 0, _, _, _, h => by unfold innerP at h; cases h
  | k + 1, v, r, v', h => by
    unfold innerP at h
    split at h
    · cases h; rfl
    · obtain ⟨p, -, h⟩ := C.bind_eq_ok.1 h
      split at h
      · cases h; rfl
      · obtain ⟨⟨r, ps, cs, net⟩, hp, h⟩ := C.bind_eq_ok.1 h
        dsimp only at h
        split at h
        · cases h; exact pass_length _ _ _ _ hp
        · exact (innerP_keeps k _ h).trans (pass_length _ _ _ _ hp)

theorem restP_length : ∀ (k : ℕ) (v : Vars) {v' : Vars}, B.restP k v = .ok (.over v') →
    v'.peers.length = v.peers.length
  | 0, _, _, h => by unfold restP at h; cases h
  | k + 1, v, v', h => by
    unfold restP at h
    split at h
    · cases h; rfl
    · obtain ⟨⟨r, v1⟩, hi, h⟩ := C.bind_eq_ok.1 h
      dsimp only at h
      split at h
      · cases h
      · obtain ⟨size, -, h⟩ := C.bind_eq_ok.1 h
        obtain ⟨⟨input, net⟩, -, h⟩ := C.bind_eq_ok.1 h
        obtain ⟨⟨r, tp, o'⟩, -, h⟩ := C.bind_eq_ok.1 h
        dsimp only at h
        split at h
        · obtain ⟨ps, -, h⟩ := C.bind_eq_ok.1 h
          cases h
        · obtain ⟨x, -, h⟩ := C.bind_eq_ok.1 h
          cases x with
          | none => cases h
          | some nets =>
            have h2 := innerP_keeps _ _ hi
            exact (restP_length k _ h).trans h2

theorem pass_nets : ∀ (i : ℕ) (ps : List PeerState) (cs : List Chan) (net : Chan) {r : Int} {ps' : List PeerState}
    {cs' : List Chan} {net' : Chan}, B.pass i ps cs net = .ok (r, ps', cs', net') → cs'.length = cs.length
  | i, p :: ps, c :: cs, net, r, ps', cs', net', h => by
    unfold pass at h
    obtain ⟨⟨input, c1⟩, -, h⟩ := C.bind_eq_ok.1 h
    obtain ⟨⟨r1, p1, out⟩, -, h⟩ := C.bind_eq_ok.1 h
    dsimp only at h
    split at h
    · cases h; rfl
    · obtain ⟨net1, -, h⟩ := C.bind_eq_ok.1 h
      obtain ⟨⟨r2, ps2, cs2, net2⟩, h2, h⟩ := C.bind_eq_ok.1 h
      cases h
      rw [List.length_cons, List.length_cons, pass_nets (i + 1) ps cs net1 h2]
  | _, [], _, _, _, _, _, _, h => by unfold pass at h; cases h; rfl
  | _, _ :: _, [], _, _, _, _, _, h => by unfold pass at h; cases h; rfl

theorem ld_at {α : Type} (l : List α) (a : α) (l' : List α) {i : ℕ} (h : l.length = i) : ld (l ++ a :: l') i = .ok a := by
  subst h
  simp [ld]

theorem st_at {α : Type} (l : List α) (a b : α) (l' : List α) {i : ℕ} (h : l.length = i) :
    st (l ++ a :: l') i b = .ok (l ++ b :: l') := by
  subst h
  simp [st]

/-- Where `fuzz_loop` does nothing, the loop with indices is the one along the lists. -/
theorem passes_eq {k step : ℕ} {l : List Bytes} (hf : ∀ v : Vars, v.peers ≠ [] → B.fuzzP k step l v = .ok (.over v)) :
    ∀ (ps : List PeerState) (cs : List Chan) (dps : List PeerState) (dcs : List Chan) (i : ℕ) (tp : TP) (net : Chan),
    dps.length = i → dcs.length = i → ps.length = cs.length →
    B.passes k step l ps.length i ⟨tp, dps ++ ps, net, dcs ++ cs⟩ = (do
      let (r, ps, cs, net) ← B.pass i ps cs net
      if r ≠ 0 then do
        let _ ← freeAll (dps ++ ps)
        .ok (.returns r)
      else .ok (.over ⟨tp, dps ++ ps, net, dcs ++ cs⟩))
  | [], [], dps, dcs, i, tp, net, _, _, _ => by
    unfold pass
    rw [C.ok_bind]
    rfl
  | [], _ :: _, _, _, _, _, _, _, _, h => by cases h
  | _ :: _, [], _, _, _, _, _, _, _, h => by cases h
  | p :: ps, c :: cs, dps, dcs, i, tp, net, h1, h2, h3 => by
    rw [List.length_cons]
    unfold passes pass
    dsimp only
    rw [ld_at _ _ _ h1, C.ok_bind, ld_at _ _ _ h2, C.ok_bind]
    cases recv c (B.pbuf i (peerInputSize p)) with
    | ub e => rfl
    | ok x =>
      obtain ⟨input, c'⟩ := x
      rw [C.ok_bind, C.ok_bind]
      dsimp only
      rw [st_at _ _ _ _ h2, C.ok_bind, hf _ (by simp), C.ok_bind]
      dsimp only
      rw [ld_at _ _ _ h1, C.ok_bind]
      cases B.peerNext i p input (B.pbuf i (peerOutputSize p)) with
      | ub e => rfl
      | ok x =>
        obtain ⟨r, p', out⟩ := x
        rw [C.ok_bind, C.ok_bind]
        dsimp only
        rw [st_at _ _ _ _ h1, C.ok_bind]
        by_cases hr : r ≠ 0
        · rw [if_pos hr, if_pos hr, C.ok_bind]
          dsimp only
          rw [if_pos hr]
        · rw [if_neg hr, if_neg hr]
          cases send net out with
          | ub e => rfl
          | ok net' =>
            rw [C.ok_bind, C.ok_bind]
            have ih := passes_eq hf ps cs (dps ++ [p']) (dcs ++ [c']) (i + 1) tp net' (by simp [h1]) (by simp [h2])
              (by simpa using h3)
            simp only [List.append_assoc, List.singleton_append] at ih
            rw [ih]
            cases B.pass (i + 1) ps cs net' with
            | ub e => rfl
            | ok x => rfl

theorem innerF_eq {step : ℕ} {l : List Bytes} (hf : ∀ (k : ℕ) (v : Vars), v.peers ≠ [] → B.fuzzP k step l v = .ok (.over v)) :
    ∀ (k : ℕ) (v : Vars), v.peers.length = v.nets.length → B.innerF step l k v = (do
      let (r, v) ← B.inner k v
      if r ≠ 0 then .ok (.returns r) else .ok (.over v))
  | 0, v, _ => rfl
  | k + 1, v, hv => by
    unfold innerF inner
    split
    · rfl
    · cases ld v.peers 1 with
      | ub e => rfl
      | ok p =>
        rw [C.ok_bind, C.ok_bind]
        split
        · rfl
        · have h := passes_eq (hf (k + 1)) v.peers v.nets [] [] 0 v.tp v.net rfl rfl hv
          simp only [List.nil_append] at h
          have e : v = ⟨v.tp, v.peers, v.net, v.nets⟩ := rfl
          rw [← e] at h
          rw [h]
          cases hp : B.pass 0 v.peers v.nets v.net with
          | ub e => rfl
          | ok x =>
            obtain ⟨r, ps, cs, net⟩ := x
            rw [C.ok_bind, C.ok_bind]
            dsimp only
            by_cases hr : r ≠ 0
            · rw [if_pos hr, if_pos hr]
              cases freeAll ps with
              | ub e => rfl
              | ok ps' =>
                rw [C.ok_bind, C.ok_bind, C.ok_bind, C.ok_bind]
                dsimp only
                rw [if_pos hr]
            · rw [if_neg hr, if_neg hr, C.ok_bind]
              dsimp only
              rw [innerF_eq hf k _ (by
                dsimp only
                rw [pass_length _ _ _ _ hp, pass_nets _ _ _ _ hp, hv])]

theorem inner_nets : ∀ (k : ℕ) (v : Vars) {v' : Vars}, B.inner k v = .ok (0, v') → v'.nets.length = v.nets.length
  | 0, _, _, h => by unfold inner at h; cases h
  | k + 1, v, v', h => by
    unfold inner at h
    split at h
    · cases h; rfl
    · obtain ⟨p, -, h⟩ := C.bind_eq_ok.1 h
      split at h
      · cases h; rfl
      · obtain ⟨⟨r, ps, cs, net⟩, hp, h⟩ := C.bind_eq_ok.1 h
        dsimp only at h
        split at h
        · rename_i hr
          obtain ⟨ps', -, h⟩ := C.bind_eq_ok.1 h
          cases h
          exact absurd rfl hr
        · exact (inner_nets k _ h).trans (pass_nets _ _ _ _ hp)

end Build

end Verif.TpDkg.Driver
