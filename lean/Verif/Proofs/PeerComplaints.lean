import Verif.Proofs.PeerStep
import Verif.Proofs.Tp18
import Verif.Spec.Session

/-!
# The complaints recorded by a peer
-/

set_option linter.unusedSectionVars false

namespace Verif.TpDkg

open H Wire

/-- The accusations announced by the first `i` peers. -/
def announced (n : ℕ) (input : Bytes) (i : ℕ) : List (ℕ × UInt8) :=
  (List.range i).flatMap fun j => (accused n input j).map (Prod.mk j)

theorem announced_succ (n : ℕ) (input : Bytes) (i : ℕ) :
    announced n input (i + 1) = announced n input i ++ (accused n input i).map (Prod.mk i) := by
  unfold announced
  rw [List.range_succ, List.flatMap_append]
  simp

theorem announced_length {n : ℕ} {input : Bytes} (h : CountsOk n input) : ∀ {i : ℕ}, i ≤ n →
    (announced n input i).length ≤ i * n
  | 0, _ => by simp [announced]
  | i + 1, hi => by
    rw [announced_succ, List.length_append, List.length_map]
    have h1 := announced_length h (i := i) (by omega)
    have h2 : (accused n input i).length ≤ countAt n input i := by
      unfold accused slice
      rw [List.length_take]
      exact Nat.min_le_left _ _
    have h3 := h i (by omega)
    have e : (i + 1) * n = i * n + n := by ring
    omega

/-- The accusations `A` are recorded. -/
structure Recorded (n : ℕ) (A : List (ℕ × UInt8)) (c : PeerState) : Prop where
  nodup : c.known.Nodup
  mem : ∀ p, p ∈ c.known ↔ ∃ a ∈ A, p = pair (idx a.1) a.2
  len : c.complaintsLen.toNat ≤ A.length
  cap : c.complaintsLen.toNat ≤ c.complaints.length
  mine_nodup : c.against.Nodup
  mine_mem : ∀ y, y ∈ c.against ↔ ∃ a ∈ A, a.2 = c.index ∧ y = idx a.1
  mine_cap : c.myLen.toNat ≤ c.mine.length
  src : ∀ a ∈ A, a.1 < n

theorem idx_inj {i j : ℕ} (hi : i < 255) (hj : j < 255) (h : idx i = idx j) : i = j := by
  have := congrArg UInt8.toNat h
  rw [idx_toNat hi, idx_toNat hj] at this
  omega

theorem Recorded.again {n : ℕ} {A : List (ℕ × UInt8)} {c : PeerState} (h : Recorded n A c) (hn : n ≤ 128) {i : ℕ}
    {x : UInt8} (hi : i < n) (hp : pair (idx i) x ∈ c.known) : Recorded n (A ++ [(i, x)]) c := by
  obtain ⟨b, hb, e⟩ := (h.mem _).1 hp
  obtain ⟨e1, e2⟩ := pair_inj e
  have hbn := h.src b hb
  have e3 : i = b.1 := idx_inj (by omega) (by omega) e1
  refine ⟨h.nodup, fun p => ?_, by rw [List.length_append]; have := h.len; omega, h.cap, h.mine_nodup, fun y => ?_,
    h.mine_cap, ?_⟩
  · rw [h.mem]
    constructor
    · rintro ⟨a, ha, rfl⟩
      exact ⟨a, by simp [ha], rfl⟩
    · rintro ⟨a, ha, rfl⟩
      rw [List.mem_append, List.mem_singleton] at ha
      rcases ha with ha | rfl
      · exact ⟨a, ha, rfl⟩
      · exact ⟨b, hb, e⟩
  · rw [h.mine_mem]
    constructor
    · rintro ⟨a, ha, h1, h2⟩
      exact ⟨a, by simp [ha], h1, h2⟩
    · rintro ⟨a, ha, h1, h2⟩
      rw [List.mem_append, List.mem_singleton] at ha
      rcases ha with ha | rfl
      · exact ⟨a, ha, h1, h2⟩
      · exact ⟨b, hb, by rw [← e2]; exact h1, by rw [← e3]; exact h2⟩
  · intro a ha
    rw [List.mem_append, List.mem_singleton] at ha
    rcases ha with ha | rfl
    · exact h.src a ha
    · exact hi

theorem take_set {α : Type} {l : List α} {k : ℕ} {a : α} (h : k < l.length) :
    (l.set k a).take (k + 1) = l.take k ++ [a] := by
  rw [List.take_add_one, List.getElem?_set_self h, List.take_set_of_le (Nat.le_refl _)]
  rfl

theorem nodup_concat' {α : Type} {l : List α} {a : α} (h : l.Nodup) (ha : a ∉ l) : (l ++ [a]).Nodup := by
  rw [List.nodup_append]
  refine ⟨h, List.nodup_singleton _, ?_⟩
  intro x hx y hy
  rw [List.mem_singleton] at hy
  rintro rfl
  exact ha (hy ▸ hx)

theorem Recorded.mine_lt {n : ℕ} {A : List (ℕ × UInt8)} {c : PeerState} (h : Recorded n A c) (hm : c.mine.length = n)
    {i : ℕ} (hi : i < n) (hp : idx i ∉ c.against) : c.myLen.toNat < c.mine.length := by
  have hnod : (c.against ++ [idx i]).Nodup := nodup_concat' h.mine_nodup hp
  have hsub : c.against ++ [idx i] ⊆ (List.range n).map idx := by
    intro y hy
    rw [List.mem_append, List.mem_singleton] at hy
    rw [List.mem_map]
    rcases hy with hy | rfl
    · obtain ⟨a, ha, -, rfl⟩ := (h.mine_mem y).1 hy
      exact ⟨a.1, List.mem_range.2 (h.src a ha), rfl⟩
    · exact ⟨i, List.mem_range.2 hi, rfl⟩
  have := (hnod.subperm hsub).length_le
  rw [List.length_append, List.length_map, List.length_range, List.length_singleton] at this
  have e : c.against.length = c.myLen.toNat := by
    unfold PeerState.against
    rw [List.length_take]
    exact Nat.min_eq_left h.mine_cap
  omega

namespace Peer

variable [Signing] [Hashes] [NoiseCrypto] [Mac]
variable {clock : ℕ → UInt64} {log : Bool} {input : Bytes} {s : PRun} {U : Prop} {E : Int → PRun → Prop}

/-- The complaints, with what the loop needs to know. -/
def Rec17 (c0 : PeerState) (n : ℕ) (A : List (ℕ × UInt8)) (s' : PRun) : Prop :=
  PWF s'.ctx ∧ s'.ctx.n = c0.n ∧ s'.ctx.index = c0.index ∧ Recorded n A s'.ctx

theorem wp_step17Inner {c0 : PeerState} {n data i k : ℕ} {A : List (ℕ × UInt8)}
    (hU : input.length ≤ data + (k + 1) ∨ n * n ≤ A.length → U) (hn : c0.n.toNat = n) (hi : i < n)
    (hR : Rec17 c0 n A s) :
    Wp (step17Inner input data i k) U E (fun _ s' => (data + (k + 1) < input.length) ∧
      Rec17 c0 n (A ++ [(i, input.getD (data + (k + 1)) 0)]) s') s := by
  obtain ⟨w, hn', hx', hr⟩ := hR
  by_cases hk : data + (k + 1) < input.length
  case neg =>
    unfold step17Inner
    rw [wp_bind, wp_lift, ld, List.getElem?_eq_none (by omega)]
    exact hU (.inl (by omega))
  have hget : input.getD (data + (k + 1)) 0 = input[data + (k + 1)] := by
    rw [List.getD_eq_getElem?_getD, List.getElem?_eq_getElem hk]; rfl
  rw [hget]
  generalize hx : input[data + (k + 1)] = x
  have hn128 : n ≤ 128 := by rw [← hn, ← hn']; exact w.n_le
  have hnn : n * n ≤ 128 * 128 := Nat.mul_le_mul hn128 hn128
  have hlenc : s.ctx.complaints.length = n * n := by rw [w.complaints, hn', hn]
  have hlenm : s.ctx.mine.length = n := by rw [w.mine, hn', hn]
  unfold step17Inner
  rw [wp_bind, wp_lift_ok (ld_ok hk), wp_bind, wp_get]
  rw [hx]
  dsimp only
  rw [wp_bind, wp_lift_ok (rd_ok (by have := hr.cap; omega)), wp_ite]
  refine ⟨fun hm => ?_, fun hm => ?_⟩
  · exact ⟨hk, w, hn', hx', hr.again hn128 hi (by simpa [PeerState.known] using hm)⟩
  · have hm' : pair (idx i) x ∉ s.ctx.known := by simpa [PeerState.known] using hm
    by_cases hl : s.ctx.complaintsLen.toNat < s.ctx.complaints.length
    case neg =>
      unfold addComplaint
      rw [wp_bind, wp_bind, wp_get, wp_bind, wp_lift, st, if_neg hl]
      exact hU (.inr (by have := hr.len; omega))
    have hl1 : (s.ctx.complaintsLen + 1).toNat = s.ctx.complaintsLen.toNat + 1 := by
      rw [UInt16.toNat_add]
      simp only [UInt16.reduceToNat]
      omega
    have hkn : ∀ c : PeerState, c.complaints = s.ctx.complaints.set s.ctx.complaintsLen.toNat (pair (idx i) x) →
        c.complaintsLen = s.ctx.complaintsLen + 1 → c.known = s.ctx.known ++ [pair (idx i) x] := by
      intro c h1 h2
      unfold PeerState.known
      rw [h1, h2, hl1, take_set hl]
    have hmem : ∀ p, p ∈ s.ctx.known ++ [pair (idx i) x] ↔ ∃ a ∈ A ++ [(i, x)], p = pair (idx a.1) a.2 := by
      intro p
      rw [List.mem_append, List.mem_singleton, hr.mem]
      constructor
      · rintro (⟨a, ha, rfl⟩ | rfl)
        · exact ⟨a, by simp [ha], rfl⟩
        · exact ⟨(i, x), by simp, rfl⟩
      · rintro ⟨a, ha, rfl⟩
        rw [List.mem_append, List.mem_singleton] at ha
        rcases ha with ha | rfl
        · exact .inl ⟨a, ha, rfl⟩
        · exact .inr rfl
    have hsrc : ∀ a ∈ A ++ [(i, x)], a.1 < n := by
      intro a ha
      rw [List.mem_append, List.mem_singleton] at ha
      rcases ha with ha | rfl
      · exact hr.src a ha
      · exact hi
    rw [wp_bind, wp_addComplaint hl, wp_ite]
    refine ⟨fun hxi => ?_, fun hxi => ?_⟩
    · have hna : idx i ∉ s.ctx.against := by
        intro h
        obtain ⟨a, ha, h1, h2⟩ := (hr.mine_mem _).1 h
        exact hm' ((hr.mem _).2 ⟨a, ha, by rw [← h2, h1, hxi]⟩)
      have hml : s.ctx.myLen.toNat < s.ctx.mine.length := hr.mine_lt hlenm hi hna
      have hm1 : (s.ctx.myLen + 1).toNat = s.ctx.myLen.toNat + 1 := by
        rw [UInt8.toNat_add]
        simp only [UInt8.reduceToNat]
        omega
      have hag : ∀ c : PeerState, c.mine = s.ctx.mine.set s.ctx.myLen.toNat (idx i) →
          c.myLen = s.ctx.myLen + 1 → c.against = s.ctx.against ++ [idx i] := by
        intro c h1 h2
        unfold PeerState.against
        rw [h1, h2, hm1, take_set hml]
      rw [wp_addMine (by exact hml)]
      refine ⟨hk, ⟨w.t_pos, w.t_lt, w.n_le, w.lastTs, w.sigPks, w.noisePks, w.outs, w.ins, w.shares, w.xshares, ?_,
        w.commitments, ?_⟩, hn', hx', ?_, ?_, ?_, ?_, ?_, ?_, ?_, hsrc⟩
      · simpa using w.mine
      · simpa using w.complaints
      · rw [hkn _ rfl rfl]; exact nodup_concat' hr.nodup hm'
      · rw [hkn _ rfl rfl]; exact hmem
      · dsimp only; rw [hl1, List.length_append]; have := hr.len; simpa using this
      · dsimp only; rw [hl1, List.length_set]; exact hl
      · rw [hag _ rfl rfl]; exact nodup_concat' hr.mine_nodup hna
      · rw [hag _ rfl rfl]
        intro y
        rw [List.mem_append, List.mem_singleton, hr.mine_mem]
        dsimp only
        constructor
        · rintro (⟨a, ha, h1, h2⟩ | rfl)
          · exact ⟨a, by simp [ha], h1, h2⟩
          · exact ⟨(i, x), by simp, hxi, rfl⟩
        · rintro ⟨a, ha, h1, h2⟩
          rw [List.mem_append, List.mem_singleton] at ha
          rcases ha with ha | rfl
          · exact .inl ⟨a, ha, h1, h2⟩
          · exact .inr h2
      · dsimp only; rw [hm1, List.length_set]; exact hml
    · refine ⟨hk, ⟨w.t_pos, w.t_lt, w.n_le, w.lastTs, w.sigPks, w.noisePks, w.outs, w.ins, w.shares, w.xshares, w.mine,
        w.commitments, ?_⟩, hn', hx', ?_, ?_, ?_, ?_, hr.mine_nodup, ?_, hr.mine_cap, hsrc⟩
      · simpa using w.complaints
      · rw [hkn _ rfl rfl]; exact nodup_concat' hr.nodup hm'
      · rw [hkn _ rfl rfl]; exact hmem
      · dsimp only; rw [hl1, List.length_append]; have := hr.len; simpa using this
      · dsimp only; rw [hl1, List.length_set]; exact hl
      · intro y
        show y ∈ s.ctx.against ↔ _
        rw [hr.mine_mem]
        dsimp only
        constructor
        · rintro ⟨a, ha, h1, h2⟩
          exact ⟨a, by simp [ha], h1, h2⟩
        · rintro ⟨a, ha, h1, h2⟩
          rw [List.mem_append, List.mem_singleton] at ha
          rcases ha with ha | rfl
          · exact ⟨a, ha, h1, h2⟩
          · exact absurd h1 hxi

theorem wp_step17Body {c0 : PeerState} {n i : ℕ} (hU : ¬ CountsOk n input → U) (hn : c0.n.toNat = n) (hi : i < n)
    (hin : input.length = 111 + n * (112 + n)) (hE : ∀ e s', e ≠ 0 → s'.ctx.index = c0.index → Recorded n (announced n input i) s'.ctx → E e s')
    (hR : Rec17 c0 n (announced n input i) s) :
    Wp (step17Body clock log input c0.n i) U E (fun _ s' => Rec17 c0 n (announced n input (i + 1)) s') s := by
  obtain ⟨w, hn', hx', hr⟩ := hR
  have hn128 : n ≤ 128 := by rw [← hn, ← hn']; exact w.n_le
  have hnn : s.ctx.n.toNat = n := by rw [hn', hn]
  have hm : (i + 1) * (112 + n) ≤ n * (112 + n) := Nat.mul_le_mul_right _ hi
  have hm1 : (i + 1) * (112 + n) = i * (112 + n) + (112 + n) := by ring
  have hsz : msg9Size c0.n = 112 + n := by unfold msg9Size; omega
  obtain ⟨base, hbase⟩ : ∃ base, i * (112 + n) = base := ⟨_, rfl⟩
  have hcnt : countAt n input i = (input.getD (111 + base + 111) 0).toNat := by unfold countAt; rw [hbase]
  have hacc : accused n input i = slice input (111 + base + 112) (countAt n input i) := by unfold accused; rw [hbase]
  unfold step17Body
  dsimp only [hdrSize]
  rw [hsz, hbase]
  have hil : i < s.ctx.lastTs.length := by rw [w.lastTs, hnn]; exact hi
  rw [wp_bind, wp_dump (by omega), wp_bind, wp_sigPkOf (by rw [w.sigPks, hnn]; exact hi), wp_bind]
  refine wp_recv (by omega) (by omega) hil fun r last k hrc => ?_
  rw [wp_ite]
  have hrec : Recorded n (announced n input i) (received s.ctx i last k) :=
    ⟨hr.nodup, hr.mem, hr.len, hr.cap, hr.mine_nodup, hr.mine_mem, hr.mine_cap, hr.src⟩
  refine ⟨fun h0 => hE _ _ (by have := recvMsg_range hrc; omega) hx' hrec, fun h0 => ?_⟩
  have h0 : r = 0 := by simpa using h0
  subst h0
  obtain ⟨l, hl1, hl2⟩ := recvMsg_len hrc
  have hbig : 256 ≤ (lenField l).toNat := lenField_large hl2 (by omega) (by omega)
  have hd : 111 + base + 111 < input.length := by omega
  rw [wp_bind, wp_lift_ok hl1, wp_bind, wp_lift_ok (ld_ok hd), wp_ite]
  have hget : input.getD (111 + base + 111) 0 = input[111 + base + 111] := by
    rw [List.getD_eq_getElem?_getD, List.getElem?_eq_getElem hd]; rfl
  rw [← hget]
  have hd256 : (input.getD (111 + base + 111) 0).toNat < 256 := UInt8.toNat_lt _
  refine ⟨fun _ => hE _ _ (by decide) hx' hrec, fun _ => ?_⟩
  rw [show min (input.getD (111 + base + 111) 0).toNat ((lenField l).toNat - 1) = countAt n input i by
    rw [hcnt]; exact Nat.min_eq_left (by omega)]
  refine wp_forN (fun k s' => Rec17 c0 n (announced n input i ++ (slice input (111 + base + 112) k).map (Prod.mk i)) s')
    ?_ ?_ ?_
  · refine ⟨⟨w.t_pos, w.t_lt, w.n_le, ?_, w.sigPks, w.noisePks, w.outs, w.ins, w.shares, w.xshares, w.mine,
      w.commitments, w.complaints⟩, hn', hx', ?_⟩
    · simpa [received] using w.lastTs
    · simp only [slice, List.take_zero, List.map_nil, List.append_nil]
      exact ⟨hr.nodup, hr.mem, hr.len, hr.cap, hr.mine_nodup, hr.mine_mem, hr.mine_cap, hr.src⟩
  · intro k s' hk hR'
    refine (wp_step17Inner (fun h => hU fun hc => ?_) hn hi hR').mono id (fun _ _ h => h) ?_
    · have h1 := hc i hi
      have h2 := announced_length hc (i := i) (by omega)
      have h3 : (slice input (111 + base + 112) k).length ≤ k := by
        unfold slice
        rw [List.length_take]
        exact Nat.min_le_left _ _
      have h4 : (i + 1) * n ≤ n * n := Nat.mul_le_mul_right _ hi
      have h5 : (i + 1) * n = i * n + n := by ring
      rw [List.length_append, List.length_map] at h
      omega
    · rintro _ s'' ⟨hb, h⟩
      rw [slice_succ (by omega), List.map_append, ← List.append_assoc]
      rw [show 111 + base + 111 + (k + 1) = 111 + base + 112 + k by omega] at h
      exact h
  · intro s' h
    rw [announced_succ, hacc]
    exact h


/-- The step that receives the complaints records exactly the announced ones. -/
theorem wp_step17_records {n : ℕ} (hU : ¬ CountsOk n input → U) (w : PWF s.ctx) (hn : s.ctx.n.toNat = n)
    (h0 : s.ctx.complaintsLen = 0) (hm0 : s.ctx.myLen = 0) (hin : input.length = 111 + n * (111 + (n + 1)))
    (hout : s.out.length = 0) :
    Wp (step17 clock log input) U (fun e s' => e ≠ 0 ∧ s'.ctx.index = s.ctx.index ∧ ∃ A, Recorded n A s'.ctx)
      (fun r s' => r = 0 ∧ s'.ctx.index = s.ctx.index ∧ Recorded n (announced n input n) s'.ctx) s := by
  refine wp_step17 hn hin hout (fun i s' => Rec17 s.ctx n (announced n input i) s') ?_ ?_ ?_ ?_ ?_
  · intro r last k hr _
    refine ⟨by have := recvMsg_range hr; omega, rfl, [], ?_⟩
    constructor <;> simp [PeerState.known, PeerState.against, receivedTp, h0, hm0]
  · intro last k _
    refine ⟨⟨w.t_pos, w.t_lt, w.n_le, w.lastTs, w.sigPks, w.noisePks, w.outs, w.ins, w.shares, w.xshares, w.mine,
      w.commitments, w.complaints⟩, rfl, rfl, ?_⟩
    constructor <;> simp [announced, PeerState.known, PeerState.against, receivedTp, h0, hm0]
  · intro i s' hi hR
    exact wp_step17Body hU hn hi (by rw [hin]; ring) (fun _ _ h hx hA => ⟨h, hx, _, hA⟩) hR
  · rintro s' ⟨_, _, hx, hr⟩ _
    exact ⟨rfl, hx, hr⟩
  · rintro s' ⟨_, _, hx, hr⟩ _
    exact ⟨rfl, hx, hr.nodup, hr.mem, hr.len, hr.cap, hr.mine_nodup, hr.mine_mem, hr.mine_cap, hr.src⟩

end Peer

end Verif.TpDkg
