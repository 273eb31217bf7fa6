import Verif.Model.Timing
import Verif.Spec.Timing

/-!
# Pairs of runs
-/

set_option linter.unusedSectionVars false

namespace Verif.Ct

open Ristretto T Spec.Timing

variable {α β γ δ : Type}

/-! ## Without events -/

section
variable (G : Type) [Ristretto G] [Hashes]

theorem finalize_res (mlock : Bool) (x : Bytes) (xLen : UInt16) (N : B32) (out0 : B64) :
    (finalize mlock x xLen N out0).res = Oprf.finalize mlock x xLen N out0 := by
  cases mlock <;> simp [finalize, Oprf.finalize, mlockRet]

theorem clen_res (left : ℕ) : (clen left).res = .ok (if left > 64 then 64 else left) := by
  unfold clen
  rw [res_branch]
  split <;> rfl

theorem xmdLoop_res (b0 : B64) (dp : Bytes) (ell : ℕ) : ∀ (fuel i : ℕ) (bi : B64) (out : Bytes) (off left : ℕ),
    (xmdLoop b0 dp ell fuel i bi out off left).res = Oprf.xmdLoop b0 dp ell fuel i bi out off left
  | 0, _, _, _, _, _ => rfl
  | fuel + 1, i, bi, out, off, left => by
    simp only [xmdLoop, Oprf.xmdLoop, Oprf.putBlock, res_branch, res_bind, res_wr, res_pure, clen_res, C.ok_bind,
      xmdLoop_res b0 dp ell fuel]

theorem expandMessageXmd_res (msg : Bytes) (msgLen : UInt8) (dst : Bytes) (dstLen len : UInt8) (out0 : Bytes) :
    (expandMessageXmd msg msgLen dst dstLen len out0).res = Oprf.expandMessageXmd msg msgLen dst dstLen len out0 := by
  simp only [expandMessageXmd, Oprf.expandMessageXmd, Oprf.putBlock, res_branch, res_bind, res_rd, res_wr, res_pure, clen_res,
    C.ok_bind, xmdLoop_res, res_touch]

theorem hashToGroup_res (mlock : Bool) (msg : Bytes) (msgLen : UInt8) (p0 : B32) :
    (hashToGroup G mlock msg msgLen p0).res = Oprf.hashToGroup G mlock msg msgLen p0 := by
  cases mlock
  · simp [hashToGroup, Oprf.hashToGroup, mlockRet]
  · simp only [hashToGroup, Oprf.hashToGroup, mlockRet, res_bind, res_call, C.ok_bind, res_branch, expandMessageXmd_res, res_pure]
    simp only [if_true, ne_eq, not_true_eq_false, if_false, Bool.not_true, Bool.false_eq_true, eq_comm (a := (0 : Int))]

theorem blind_res (mlock : Bool) (scratch : B32) (x : Bytes) (xLen : UInt8) (rnd r0 b0 : B32) :
    (blind G mlock scratch x xLen rnd r0 b0).res = Oprf.blind G mlock scratch x xLen rnd r0 b0 := by
  cases mlock
  · simp [blind, Oprf.blind, mlockRet]
  · simp only [blind, Oprf.blind, mlockRet, res_bind, res_call, C.ok_bind, res_branch, hashToGroup_res, res_pure]
    simp only [if_true, ne_eq, not_true_eq_false, if_false, Bool.not_true, Bool.false_eq_true, eq_comm (a := (0 : Int))]

theorem evaluate_res (k b Z0 : B32) : (evaluate G k b Z0).res = .ok (Oprf.evaluate G k b Z0) := rfl

theorem unblind_res (mlock : Bool) (r Z N0 : B32) : (unblind G mlock r Z N0).res = .ok (Oprf.unblind G mlock r Z N0) := by
  cases mlock <;>
  · simp only [unblind, Oprf.unblind, mlockRet, res_bind, res_call, C.ok_bind, res_branch, res_pure]
    simp only [if_true, Bool.not_false, Bool.not_true, Bool.false_eq_true, if_false, reduceCtorEq]
    split <;> try rfl
    try (split <;> try rfl)
    try (split <;> rfl)

theorem coeffLoop_res (index : UInt8) : ∀ (peers : List UInt8) (j : ℕ) (acc : B32 × B32),
    (coeffLoop index peers j acc).res = .ok (peers.foldl (Toprf.coeffStep index) acc)
  | [], _, _ => rfl
  | p :: peers, j, acc => by
    simp only [coeffLoop, res_branch, if_true, res_bind, res_touch, C.ok_bind, coeffLoop_res index peers, List.foldl_cons,
      Toprf.coeffStep]
    split <;> rfl

theorem coeff_res (index : UInt8) (peers : List UInt8) : (coeff index peers).res = .ok (Toprf.coeff index peers) := by
  simp only [coeff, res_bind, coeffLoop_res, C.ok_bind, res_pure, Toprf.coeff]

theorem mulPow_res (x : B32) : ∀ (j : ℕ) (tmp : B32), (mulPow x j tmp).res = .ok (Toprf.mulPow x j tmp)
  | 0, _ => rfl
  | j + 1, tmp => by simp only [mulPow, res_branch, if_true, mulPow_res x j, Toprf.mulPow]

theorem shareLoop_res (x : B32) : ∀ (a : List B32) (j : ℕ) (v : B32), (shareLoop x a j v).res = .ok (Toprf.shareLoop x a j v)
  | [], _, _ => rfl
  | aj :: a, j, v => by
    simp only [shareLoop, res_branch, if_true, res_bind, res_touch, C.ok_bind, mulPow_res, shareLoop_res x a, Toprf.shareLoop]

theorem shareStep_res (secret : B32) (a : List B32) (i : UInt8) (s : List Share) :
    (shareStep secret a i s).res = Toprf.shareStep secret a i s := by
  unfold shareStep Toprf.shareStep
  split
  · rfl
  · simp only [res_bind, shareLoop_res, C.ok_bind, res_st]

theorem createShares_res (secret : B32) (n threshold : UInt8) (rnd : ℕ → B32) (out : List Share) :
    (createShares secret n threshold rnd out).res = Toprf.createShares secret n threshold rnd out := by
  unfold createShares Toprf.createShares
  split
  · rfl
  · simp only [res_bind, res_touch, C.ok_bind, res_forLeU8, shareStep_res]

theorem sink_res : ∀ (d : ℕ) (arr indexes : List UInt8), (sink d arr indexes).res = Toprf.sink d arr indexes
  | 0, _, _ => rfl
  | d + 1, arr, indexes => by
    simp only [sink, Toprf.sink, res_branch, if_true, res_bind, res_ld, res_st, sink_res d, res_pure]

theorem sortLoop_res : ∀ (k c : ℕ) (arr indexes : List UInt8), (sortLoop k c arr indexes).res = Toprf.sortLoop k c arr indexes
  | 0, _, _, _ => rfl
  | k + 1, c, arr, indexes => by
    simp only [sortLoop, Toprf.sortLoop, res_branch, if_true, res_bind, sink_res, sortLoop_res k]

theorem sortParts_res (parts : List Share) : (sortParts parts).res = Toprf.sortParts parts := by
  simp only [sortParts, Toprf.sortParts, res_bind, res_touch, C.ok_bind, sortLoop_res, res_pure]

theorem fillIndexes_res (responses : List Share) : ∀ (order indexes : List UInt8),
    (fillIndexes responses order indexes).res = Toprf.fillIndexes responses order indexes
  | [], _ => rfl
  | o :: order, indexes => by
    simp only [fillIndexes, Toprf.fillIndexes, res_branch, if_true, res_bind, res_ld, res_st, fillIndexes_res responses order]

theorem multLoop_res (indexes : List UInt8) (responses : List Share) (scratch : B32) : ∀ (order : List UInt8) (result : B32),
    (multLoop G indexes responses scratch order result).res = Toprf.multLoop G indexes responses scratch order result
  | [], _ => rfl
  | o :: order, result => by
    simp only [multLoop, Toprf.multLoop, res_branch, if_true, res_bind, res_ld, coeff_res, C.ok_bind, res_call,
      multLoop_res indexes responses scratch order, res_pure]

theorem thresholdmult_res (junk : UInt8) (scratch : B32) (responses : List Share) :
    (thresholdmult G junk scratch responses).res = Toprf.thresholdmult G junk scratch responses := by
  unfold thresholdmult Toprf.thresholdmult
  split
  · rfl
  · simp only [res_branch, res_bind, sortParts_res, fillIndexes_res, multLoop_res, res_pure]

theorem tevaluate_res (k : Share) (blinded : B32) (self : UInt8) (indexes : List UInt8) (Z0 : Share) :
    (tevaluate G k blinded self indexes Z0).res = .ok (Toprf.evaluate G k blinded self indexes Z0) := by
  simp only [tevaluate, res_bind, coeff_res, C.ok_bind, evaluate_res, res_branch, res_pure, Toprf.evaluate]
  split <;> rfl

theorem combineLoop_res (responses : List Share) : ∀ (order : List UInt8) (result : B32),
    (combineLoop G responses order result).res = Toprf.combineLoop G responses order result
  | [], _ => rfl
  | o :: order, result => by
    simp only [combineLoop, Toprf.combineLoop, res_branch, if_true, res_bind, res_ld, C.ok_bind, res_call,
      combineLoop_res responses order]

theorem thresholdcombine_res (responses : List Share) (r0 : B32) :
    (thresholdcombine G responses r0).res = Toprf.thresholdcombine G responses r0 := by
  unfold thresholdcombine Toprf.thresholdcombine
  rw [res_branch]
  split
  · rfl
  · split
    · rfl
    · simp only [res_bind, sortParts_res, combineLoop_res, res_pure]

theorem hash3tdh_res (mlock : Bool) (s1 s2 : B32) (k z : Share) (alpha : B32) (ssid : Bytes) (ssidLen : UInt16)
    (beta0 : Share) :
    (hash3tdh G mlock s1 s2 k z alpha ssid ssidLen beta0).res = Toprf.hash3tdh G mlock s1 s2 k z alpha ssid ssidLen beta0 := by
  simp only [hash3tdh, Toprf.hash3tdh, res_bind, evaluate_res, C.ok_bind, res_branch, res_rd, hashToGroup_res, res_call, res_pure,
    eq_comm (a := (0 : Int)), ne_eq]

theorem powLoop_res (z : B32) : ∀ (m : ℕ) (tmp : B32), (powLoop z m tmp).res = .ok (Dkg.powLoop z m tmp)
  | 0, _ => rfl
  | m + 1, tmp => by simp only [powLoop, res_branch, if_true, powLoop_res z m, Dkg.powLoop]

theorem polyLoop_res (z : B32) : ∀ (a : List B32) (t : ℕ) (v : B32), (polyLoop z a t v).res = .ok (Dkg.polyLoop z a t v)
  | [], _, _ => rfl
  | at' :: a, t, v => by
    simp only [polyLoop, res_branch, if_true, res_bind, powLoop_res, C.ok_bind, res_touch, polyLoop_res z a, Dkg.polyLoop]

theorem polynom_res (j : UInt8) (a : List B32) : (polynom j a).res = Dkg.polynom j a := by
  simp only [polynom, Dkg.polynom, res_bind, res_ld, polyLoop_res, C.ok_bind, res_pure]

theorem commitLoop_res (rnd : ℕ → B32) : ∀ (m k : ℕ) (c : List B32), (commitLoop G rnd m k c).res = Dkg.commitLoop G rnd m k c
  | 0, _, _ => rfl
  | m + 1, k, c => by
    simp only [commitLoop, Dkg.commitLoop, res_branch, if_true, res_bind, res_call, C.ok_bind, res_st, commitLoop_res rnd m]

theorem dealStep_res (a : List B32) (j : UInt8) (s : List Share) : (dealStep a j s).res = Dkg.shareStep a j s := by
  unfold dealStep Dkg.shareStep
  split
  · rfl
  · simp only [res_bind, polynom_res, res_st]

theorem start_res (mlock : Bool) (n threshold : UInt8) (rnd : ℕ → B32) (c : List B32) (s : List Share) :
    (start G mlock n threshold rnd c s).res = Dkg.start G mlock n threshold rnd c s := by
  unfold start Dkg.start
  split
  · rfl
  · cases mlock <;>
      simp [mlockRet, commitLoop_res, dealStep_res]

theorem verifyLoop_res (scratch j : B32) (c : List B32) : ∀ (m k : ℕ) (v1 : B32),
    (verifyLoop G scratch j c m k v1).res = Dkg.verifyLoop G scratch j c m k v1
  | 0, _, _ => rfl
  | m + 1, k, v1 => by
    simp only [verifyLoop, Dkg.verifyLoop, res_branch, if_true, res_bind, res_ld, powLoop_res, C.ok_bind, res_call,
      verifyLoop_res scratch j c m, res_pure]

theorem verifyCommitment_res (scratch : B32) (threshold self i : UInt8) (c : List B32) (share : Share) :
    (verifyCommitment G scratch threshold self i c share).res = Dkg.verifyCommitment G scratch threshold self i c share := by
  simp only [verifyCommitment, Dkg.verifyCommitment, res_branch, res_bind, res_call, C.ok_bind, res_ld, verifyLoop_res, res_pure]
  split
  · rfl
  · congr 1
    funext c0
    congr 1
    funext r
    cases r with
    | none => rfl
    | some v1 =>
      simp only [res_bind, res_call, C.ok_bind, res_branch, res_pure, memcmpRet]
      by_cases h : (scalarmultBase G share.value).2 = v1 <;> simp [h]

theorem verifyAll_res (scratch : B32) (n threshold self : UInt8) (c : List (List B32)) (shares : List Share) :
    ∀ (fuel : ℕ) (i : UInt8) (fails : List UInt8) (len : UInt8),
    (verifyAll G scratch n threshold self c shares fuel i fails len).res =
      Dkg.verifyAll G scratch n threshold self c shares fuel i fails len
  | 0, _, _, _ => rfl
  | fuel + 1, i, fails, len => by
    simp only [verifyAll, Dkg.verifyAll, res_branch]
    split
    · split
      · exact verifyAll_res scratch n threshold self c shares fuel _ _ _
      · split
        · rfl
        · simp only [res_bind, res_ld, verifyCommitment_res, res_branch, res_pure, res_st,
            verifyAll_res scratch n threshold self c shares fuel]
    · split <;> rfl

theorem verifyCommitments_res (scratch : B32) (n threshold self : UInt8) (c : List (List B32)) (shares : List Share)
    (fails : List UInt8) : (verifyCommitments G scratch n threshold self c shares fails).res =
      Dkg.verifyCommitments G scratch n threshold self c shares fails :=
  verifyAll_res G ..

theorem finishLoop_res (self : UInt8) : ∀ (shares : List Share) (i : ℕ) (v : B32),
    (finishLoop self shares i v).res = .ok (shares.foldl (fun acc s => scalarAdd acc s.value) v)
  | [], _, _ => rfl
  | s :: shares, i, v => by
    simp only [finishLoop, res_branch, if_true, res_bind, res_touch, C.ok_bind, finishLoop_res self shares, List.foldl_cons,
      res_pure, ite_self]

theorem finish_res (n : UInt8) (shares : List Share) (self : UInt8) (xi : Share) :
    (finish n shares self xi).res = Dkg.finish n shares xi := by
  simp only [finish, Dkg.finish, res_bind, res_rd, finishLoop_res, C.ok_bind, res_pure]

theorem reconLoop_res (indexes : List UInt8) : ∀ (responses : List Share) (i : ℕ) (r : B32),
    (reconLoop indexes responses i r).res =
      .ok (responses.foldl (fun acc r => scalarAdd acc (scalarMul r.value (Toprf.coeff r.index indexes))) r)
  | [], _, _ => rfl
  | s :: responses, i, r => by
    simp only [reconLoop, res_branch, if_true, res_bind, res_touch, C.ok_bind, coeff_res, reconLoop_res indexes responses,
      List.foldl_cons]

theorem reconstruct_res (responses : List Share) : (reconstruct responses).res = Dkg.reconstruct responses := by
  unfold reconstruct Dkg.reconstruct
  split
  · rfl
  · simp only [res_bind, res_touch, C.ok_bind, reconLoop_res]

theorem mulStart_res (a b : Share) (peers threshold : UInt8) (rnd : ℕ → B32) (out : List Share) :
    (mulStart a b peers threshold rnd out).res = Mpmult.mulStart a b peers threshold rnd out := by
  simp only [mulStart, Mpmult.mulStart, res_branch, res_bind, res_pure, createShares_res]
  by_cases h1 : a.index = b.index <;> by_cases h2 : peers < threshold <;> by_cases h3 : threshold = 0 <;> simp [h1, h2, h3]

theorem mulLoop_res : ∀ (l : List (B32 × B32)) (i : ℕ) (v : B32),
    (mulLoop l i v).res = .ok (l.foldl (fun v p => scalarAdd v (scalarMul p.1 p.2)) v)
  | [], _, _ => rfl
  | p :: l, i, v => by
    simp only [mulLoop, res_branch, if_true, res_bind, res_touch, C.ok_bind, mulLoop_res l, List.foldl_cons]

theorem mulFinish_res (scratch : B32) (received : List (UInt8 × Share)) (peer : UInt8) :
    (mulFinish scratch received peer).res = Mpmult.mulFinish scratch received peer := by
  unfold mulFinish Mpmult.mulFinish
  split
  · rfl
  · simp only [res_bind, res_opened, C.ok_bind, mulLoop_res, List.foldl_map, res_pure]

end

/-! ## Pairs -/

/-- Related outcomes. -/
def Rel (Q : α → β → Prop) : C α → C β → Prop
  | .ok a, .ok b => Q a b
  | .ub u, .ub v => u = v
  | _, _ => False

/-- Two runs leave the same trace and related results, or part at a call of libsodium. -/
def Twin (Q : α → β → Prop) (x : T α) (y : T β) : Prop := (x.evs = y.evs ∧ Rel Q x.res y.res) ∨ Split x.evs y.evs

theorem Twin.agree {Q : α → β → Prop} {x : T α} {y : T β} (h : Twin Q x y) : Agree x.evs y.evs := by
  rcases h with ⟨h, -⟩ | h
  · exact .inl h
  · exact .inr h

theorem evs_prefix (x : T α) (f : α → T γ) : ∃ s, (x >>= f).evs = x.evs ++ s := by
  cases h : x.res with
  | ok a => exact ⟨_, evs_bind_ok h f⟩
  | ub u => exact ⟨[], by rw [evs_bind_ub h f, List.append_nil]⟩

theorem _root_.Verif.Spec.Timing.Split.append {e e' : List Ev} (h : Split e e') (s s' : List Ev) : Split (e ++ s) (e' ++ s') := by
  obtain ⟨p, f, r, r', t, t', h⟩ := h
  simp only [List.append_assoc, List.cons_append]
  exact .mk p f r r' _ _ h

theorem _root_.Verif.Spec.Timing.Split.prepend {e e' : List Ev} (h : Split e e') (p : List Ev) : Split (p ++ e) (p ++ e') := by
  obtain ⟨q, f, r, r', t, t', h⟩ := h
  rw [← List.append_assoc, ← List.append_assoc]
  exact .mk (p ++ q) f r r' _ _ h

theorem Twin.bind {Q : α → β → Prop} {R : γ → δ → Prop} {x : T α} {y : T β} {f : α → T γ} {g : β → T δ} (h : Twin Q x y)
    (hf : ∀ a b, Q a b → Twin R (f a) (g b)) : Twin R (x >>= f) (y >>= g) := by
  rcases h with ⟨he, hr⟩ | h
  · cases hx : x.res with
    | ub u =>
      cases hy : y.res with
      | ok b => rw [hx, hy] at hr; exact hr.elim
      | ub v =>
        rw [hx, hy] at hr
        obtain rfl : u = v := hr
        refine .inl ⟨by rw [evs_bind_ub hx, evs_bind_ub hy, he], ?_⟩
        rw [res_bind, res_bind, hx, hy]
        rfl
    | ok a =>
      cases hy : y.res with
      | ub v => rw [hx, hy] at hr; exact hr.elim
      | ok b =>
        rw [hx, hy] at hr
        rcases hf a b hr with ⟨h1, h2⟩ | h1
        · refine .inl ⟨by rw [evs_bind_ok hx, evs_bind_ok hy, he, h1], ?_⟩
          rw [res_bind, res_bind, hx, hy]
          exact h2
        · refine .inr ?_
          rw [evs_bind_ok hx, evs_bind_ok hy, he]
          exact Split.prepend h1 _
  · obtain ⟨s, hs⟩ := evs_prefix x f
    obtain ⟨s', hs'⟩ := evs_prefix y g
    refine .inr ?_
    rw [hs, hs']
    exact Split.append h s s'

theorem Twin.mono {Q R : α → β → Prop} {x : T α} {y : T β} (h : Twin Q x y) (hQ : ∀ a b, Q a b → R a b) : Twin R x y := by
  rcases h with ⟨he, hr⟩ | h
  · refine .inl ⟨he, ?_⟩
    revert hr
    cases x.res <;> cases y.res <;> intro hr
    · exact hQ _ _ hr
    · exact hr
    · exact hr
    · exact hr
  · exact .inr h

theorem Twin.pure {Q : α → β → Prop} {a : α} {b : β} (h : Q a b) : Twin Q (pure a : T α) (pure b : T β) := .inl ⟨rfl, h⟩
theorem twin_ub {Q : α → β → Prop} (u : UB) : Twin Q (ub u) (ub u) := .inl ⟨rfl, rfl⟩
theorem twin_same (x : T α) : Twin (· = ·) x x := by
  refine .inl ⟨rfl, ?_⟩
  cases x.res <;> rfl

theorem twin_call (f : Fn) (r r' : Int) : Twin (fun _ _ => r = r') (call f r) (call f r') := by
  by_cases h : r = r'
  · subst h; exact .inl ⟨rfl, rfl⟩
  · exact .inr (.mk [] f r r' [] [] h)

theorem twin_touch (i n : ℕ) : Twin (fun _ _ => True) (touch i n) (touch i n) := .inl ⟨rfl, trivial⟩

theorem Twin.branch {Q : α → β → Prop} {c c' : Prop} [Decidable c] [Decidable c'] {x y : T α} {x' y' : T β} (hc : c ↔ c')
    (h1 : c → Twin Q x x') (h2 : ¬ c → Twin Q y y') : Twin Q (branch c x y) (branch c' x' y') := by
  have step : ∀ {b : Bool} {u : T α} {v : T β}, Twin Q u v →
      Twin Q (⟨.branch b :: u.evs, u.res⟩ : T α) ⟨.branch b :: v.evs, v.res⟩ := by
    intro b u v h
    rcases h with ⟨he, hr⟩ | h
    · exact .inl ⟨by rw [he], hr⟩
    · exact .inr (Split.prepend h [.branch b])
  unfold T.branch
  by_cases h : c
  · have h' := hc.1 h
    simp only [h, h', if_true, decide_true]
    exact step (h1 h)
  · have h' : ¬ c' := fun e => h (hc.2 e)
    simp only [h, h', if_false, decide_false]
    exact step (h2 h)

/-- Lists of the same length with related elements. -/
def Like (Q : α → β → Prop) (l : List α) (l' : List β) : Prop :=
  l.length = l'.length ∧ ∀ (i : ℕ) (h : i < l.length) (h' : i < l'.length), Q l[i] l'[i]

theorem like_true {l : List α} {l' : List β} (h : l.length = l'.length) : Like (fun _ _ => True) l l' :=
  ⟨h, fun _ _ _ => trivial⟩

theorem like_same (l : List α) : Like (· = ·) l l := ⟨rfl, fun _ _ _ => rfl⟩

theorem like_indexes {l l' : List Share} (h : SameIndexes l l') : Like (fun a b => a.index = b.index) l l' := by
  have hl : l.length = l'.length := by simpa using congrArg List.length h
  refine ⟨hl, fun i h1 h2 => ?_⟩
  have := congrArg (·[i]?) h
  simpa [List.getElem?_map, h1, h2] using this

theorem twin_ld {Q : α → β → Prop} {l : List α} {l' : List β} (h : Like Q l l') (i : ℕ) : Twin Q (T.ld l i) (T.ld l' i) := by
  refine .inl ⟨rfl, ?_⟩
  rw [res_ld, res_ld]
  by_cases hi : i < l.length
  · rw [ld_ok hi, ld_ok (h.1 ▸ hi)]
    exact h.2 i hi _
  · have hi' : ¬ i < l'.length := h.1 ▸ hi
    simp only [Verif.ld, List.getElem?_eq_none (not_lt.mp hi), List.getElem?_eq_none (not_lt.mp hi')]
    rfl

theorem twin_st {Q : α → β → Prop} {l : List α} {l' : List β} (h : Like Q l l') (i : ℕ) {a : α} {b : β} (hq : Q a b) :
    Twin (Like Q) (T.st l i a) (T.st l' i b) := by
  refine .inl ⟨rfl, ?_⟩
  rw [res_st, res_st]
  by_cases hi : i < l.length
  · rw [st_ok hi, st_ok (h.1 ▸ hi)]
    refine ⟨by simp [h.1], fun j hj hj' => ?_⟩
    rw [List.getElem_set, List.getElem_set]
    split
    · exact hq
    · exact h.2 j _ _
  · have hi' : ¬ i < l'.length := h.1 ▸ hi
    simp only [Verif.st, hi, hi', if_false]
    rfl

theorem twin_rd {l : List α} {l' : List β} (h : l.length = l'.length) (i n : ℕ) :
    Twin (fun a b => a.length = n ∧ b.length = n) (T.rd l i n) (T.rd l' i n) := by
  refine .inl ⟨rfl, ?_⟩
  rw [res_rd, res_rd]
  by_cases hi : i + n ≤ l.length
  · rw [rd_ok hi, rd_ok (h ▸ hi)]
    constructor
    · rw [List.length_take, List.length_drop]; omega
    · rw [List.length_take, List.length_drop]; omega
  · have hi' : ¬ i + n ≤ l'.length := h ▸ hi
    simp only [Verif.rd, hi, hi', if_false]
    rfl

theorem twin_wr {l : List α} {l' : List β} (h : l.length = l'.length) (i : ℕ) {s : List α} {s' : List β}
    (hs : s.length = s'.length) : Twin (fun a b => a.length = b.length) (T.wr l i s) (T.wr l' i s') := by
  refine .inl ⟨by simp only [T.wr, hs], ?_⟩
  rw [res_wr, res_wr]
  by_cases hi : i + s.length ≤ l.length
  · have hi' : i + s'.length ≤ l'.length := by omega
    have e1 := wr_ok hi
    have e2 := wr_ok hi'
    rw [e1, e2]
    show _ = _
    rw [wr_length e1, wr_length e2, h]
  · have hi' : ¬ i + s'.length ≤ l'.length := by omega
    simp only [Verif.wr, hi, hi', if_false]
    rfl

theorem twin_forLeU8 {σ τ : Type} {Q : σ → τ → Prop} {body : UInt8 → σ → T σ} {body' : UInt8 → τ → T τ} (n : UInt8)
    (hb : ∀ i s s', Q s s' → Twin Q (body i s) (body' i s')) : ∀ (fuel : ℕ) (i : UInt8) (s : σ) (s' : τ), Q s s' →
    Twin Q (T.forLeU8 body n fuel i s) (T.forLeU8 body' n fuel i s')
  | 0, _, _, _, _ => twin_ub _
  | fuel + 1, i, s, s', h => by
    unfold T.forLeU8
    exact Twin.branch Iff.rfl (fun _ => Twin.bind (hb i s s' h) (fun a b hab => twin_forLeU8 n hb fuel (i + 1) a b hab))
      (fun _ => Twin.pure h)

section
variable (G : Type) [Ristretto G] [Hashes]

theorem finalize_twin (mlock : Bool) {x x' : Bytes} (hx : x.length = x'.length) (xLen : UInt16) (N N' : B32) (o o' : B64) :
    Twin (fun a b => a.1 = b.1) (finalize mlock x xLen N o) (finalize mlock x' xLen N' o') := by
  unfold finalize
  refine Twin.bind (twin_call ..) fun _ _ _ => Twin.branch Iff.rfl (fun _ => Twin.pure rfl) fun _ => ?_
  exact Twin.bind (twin_rd hx ..) fun _ _ _ => Twin.pure rfl

theorem clen_twin (left : ℕ) : Twin (fun a b => a = b ∧ a ≤ 64) (clen left) (clen left) := by
  unfold clen
  exact Twin.branch Iff.rfl (fun _ => Twin.pure ⟨rfl, le_rfl⟩) (fun h => Twin.pure ⟨rfl, not_lt.mp h⟩)

theorem block_length {n : ℕ} (b b' : B64) : (b.toList.take n).length = (b'.toList.take n).length := by
  rw [List.length_take, List.length_take, Vector.length_toList, Vector.length_toList]

theorem xmdLoop_twin {b0 b0' : B64} {dp dp' : Bytes} (ell : ℕ) : ∀ (fuel i : ℕ) (bi bi' : B64) (out out' : Bytes) (off left : ℕ),
    out.length = out'.length →
    Twin (fun _ _ => True) (xmdLoop b0 dp ell fuel i bi out off left) (xmdLoop b0' dp' ell fuel i bi' out' off left)
  | 0, _, _, _, _, _, _, _, _ => twin_ub _
  | fuel + 1, i, bi, bi', out, out', off, left, h => by
    unfold xmdLoop
    refine Twin.branch Iff.rfl (fun _ => ?_) (fun _ => Twin.pure trivial)
    refine Twin.bind (clen_twin left) ?_
    rintro n _ ⟨rfl, -⟩
    refine Twin.bind (twin_wr h _ (block_length _ _)) fun o1 o1' h1 => ?_
    refine Twin.bind (clen_twin _) ?_
    rintro n' _ ⟨rfl, -⟩
    refine Twin.bind (twin_wr h1 _ (block_length _ _)) fun o2 o2' h2 => ?_
    exact xmdLoop_twin ell fuel _ _ _ _ _ _ _ h2

theorem expandMessageXmd_twin {msg msg' : Bytes} (hm : msg.length = msg'.length) (msgLen : UInt8) (dst : Bytes)
    (dstLen len : UInt8) (o : Bytes) :
    Twin (fun a b => a.1 = b.1) (expandMessageXmd msg msgLen dst dstLen len o) (expandMessageXmd msg' msgLen dst dstLen len o) := by
  unfold expandMessageXmd
  refine Twin.branch Iff.rfl (fun _ => Twin.pure rfl) fun _ => ?_
  refine Twin.branch Iff.rfl (fun _ => Twin.pure rfl) fun _ => ?_
  refine Twin.bind (twin_same _) ?_
  rintro d _ rfl
  refine Twin.bind (twin_rd hm ..) fun m m' h => ?_
  have hl : (List.replicate 128 0 ++ m ++ beBytes 2 len.toNat ++ [0] ++ (d ++ [dstLen])).length =
      (List.replicate 128 0 ++ m' ++ beBytes 2 len.toNat ++ [0] ++ (d ++ [dstLen])).length := by
    simp only [List.length_append, h.1, h.2]
  simp only []
  rw [hl]
  refine Twin.bind (twin_touch ..) fun _ _ _ => ?_
  refine Twin.bind (clen_twin _) ?_
  rintro n _ ⟨rfl, -⟩
  refine Twin.bind (twin_wr rfl _ (block_length _ _)) fun o1 o1' h1 => ?_
  exact Twin.bind (xmdLoop_twin _ _ _ _ _ _ _ _ _ h1) fun _ _ _ => Twin.pure rfl

theorem hashToGroup_twin (mlock : Bool) {msg msg' : Bytes} (hm : msg.length = msg'.length) (msgLen : UInt8) (p p' : B32) :
    Twin (fun a b => a.1 = b.1) (hashToGroup G mlock msg msgLen p) (hashToGroup G mlock msg' msgLen p') := by
  unfold hashToGroup
  refine Twin.bind (twin_call ..) fun _ _ _ => Twin.branch Iff.rfl (fun _ => Twin.pure rfl) fun _ => ?_
  refine Twin.bind (expandMessageXmd_twin hm ..) ?_
  rintro ⟨r, u⟩ ⟨_, u'⟩ rfl
  exact Twin.branch Iff.rfl (fun _ => Twin.pure rfl) (fun _ => Twin.pure rfl)

theorem blind_twin (mlock : Bool) (s s' : B32) {x x' : Bytes} (hx : x.length = x'.length) (xLen : UInt8)
    (rnd rnd' r r' b b' : B32) :
    Twin (fun a b => a.1 = b.1) (blind G mlock s x xLen rnd r b) (blind G mlock s' x' xLen rnd' r' b') := by
  unfold blind
  refine Twin.bind (twin_call ..) fun _ _ _ => Twin.branch Iff.rfl (fun _ => Twin.pure rfl) fun _ => ?_
  refine Twin.bind (hashToGroup_twin G mlock hx ..) ?_
  rintro ⟨ret, h0⟩ ⟨_, h0'⟩ rfl
  refine Twin.branch Iff.rfl (fun _ => Twin.pure rfl) fun _ => ?_
  refine Twin.bind (twin_call ..) fun _ _ h => ?_
  exact Twin.branch (by rw [h]) (fun _ => Twin.pure rfl) (fun _ => Twin.pure rfl)

theorem evaluate_twin (k k' b b' z z' : B32) : Twin (fun a b => a.1 = b.1) (evaluate G k b z) (evaluate G k' b' z') := by
  unfold evaluate
  exact Twin.bind (twin_call ..) fun _ _ h => Twin.pure h

theorem unblind_twin (mlock : Bool) (r r' Z Z' N N' : B32) :
    Twin (fun a b => a.1 = b.1) (unblind G mlock r Z N) (unblind G mlock r' Z' N') := by
  unfold unblind
  refine Twin.bind (twin_call ..) fun _ _ h => Twin.branch (by rw [h]) (fun _ => Twin.pure rfl) fun _ => ?_
  refine Twin.bind (twin_call ..) fun _ _ _ => Twin.branch Iff.rfl (fun _ => Twin.pure rfl) fun _ => ?_
  refine Twin.bind (twin_call ..) fun _ _ h => Twin.branch (by rw [h]) (fun _ => Twin.pure rfl) fun _ => ?_
  refine Twin.bind (twin_call ..) fun _ _ h => Twin.branch (by rw [h]) (fun _ => Twin.pure rfl) fun _ => ?_
  exact Twin.pure rfl

/-! ### toprf.c -/

theorem mulPow_twin (x : B32) : ∀ (j : ℕ) (t t' : B32), Twin (fun _ _ => True) (mulPow x j t) (mulPow x j t')
  | 0, _, _ => Twin.branch Iff.rfl (fun _ => Twin.pure trivial) (fun _ => Twin.pure trivial)
  | j + 1, _, _ => Twin.branch Iff.rfl (fun _ => mulPow_twin x j _ _) (fun _ => Twin.pure trivial)

theorem shareLoop_twin (x : B32) : ∀ (a a' : List B32) (j : ℕ) (v v' : B32), a.length = a'.length →
    Twin (fun _ _ => True) (shareLoop x a j v) (shareLoop x a' j v')
  | [], [], _, _, _, _ => Twin.branch Iff.rfl (fun _ => Twin.pure trivial) (fun _ => Twin.pure trivial)
  | [], _ :: _, _, _, _, h => by cases h
  | _ :: _, [], _, _, _, h => by cases h
  | _ :: a, _ :: a', j, v, v', h => by
    unfold shareLoop
    refine Twin.branch Iff.rfl (fun _ => ?_) (fun _ => Twin.pure trivial)
    refine Twin.bind (twin_touch ..) fun _ _ _ => Twin.bind (mulPow_twin ..) fun _ _ _ => ?_
    exact shareLoop_twin x a a' _ _ _ (by simpa using h)

theorem createShares_twin (s s' : B32) (n threshold : UInt8) (rnd rnd' : ℕ → B32) {out out' : List Share}
    (h : out.length = out'.length) :
    Twin (Like fun _ _ => True) (createShares s n threshold rnd out) (createShares s' n threshold rnd' out') := by
  unfold createShares
  split
  · exact twin_ub _
  · refine Twin.bind (twin_touch ..) fun _ _ _ => twin_forLeU8 n (fun i a b hab => ?_) _ _ _ _ (like_true h)
    unfold shareStep
    split
    · exact twin_ub _
    · exact Twin.bind (shareLoop_twin _ _ _ _ _ _ (by simp)) fun _ _ _ => twin_st hab _ trivial

theorem sortParts_twin {l l' : List Share} (h : SameIndexes l l') : Twin (· = ·) (sortParts l) (sortParts l') := by
  have hl : l.length = l'.length := by simpa using congrArg List.length h
  unfold sortParts
  rw [h, hl]
  exact twin_same _

theorem fillIndexes_twin {l l' : List Share} (h : SameIndexes l l') : ∀ (order : List UInt8) (indexes indexes' : List UInt8),
    Like (fun _ _ => True) indexes indexes' →
    Twin (fun a b => a.length = b.length) (fillIndexes l order indexes) (fillIndexes l' order indexes')
  | [], _, _, hi => Twin.branch Iff.rfl (fun _ => Twin.pure hi.1) (fun _ => Twin.pure hi.1)
  | o :: order, _, _, hi => by
    unfold fillIndexes
    refine Twin.branch Iff.rfl (fun _ => ?_) (fun _ => Twin.pure hi.1)
    refine Twin.bind (twin_ld (like_indexes h) _) fun r r' hr => ?_
    exact Twin.bind (twin_st hi _ trivial) fun _ _ h' => fillIndexes_twin h order _ _ h'

theorem fillIndexes_same {l l' : List Share} (h : SameIndexes l l') : ∀ (order indexes : List UInt8),
    Twin (· = ·) (fillIndexes l order indexes) (fillIndexes l' order indexes)
  | [], _ => Twin.branch Iff.rfl (fun _ => Twin.pure rfl) (fun _ => Twin.pure rfl)
  | o :: order, indexes => by
    unfold fillIndexes
    refine Twin.branch Iff.rfl (fun _ => ?_) (fun _ => Twin.pure rfl)
    refine Twin.bind (twin_ld (like_indexes h) _) fun r r' hr => ?_
    rw [hr]
    refine Twin.bind (twin_same _) ?_
    rintro i _ rfl
    exact fillIndexes_same h order _

theorem multLoop_twin {l l' : List Share} (h : SameIndexes l l') (indexes : List UInt8) (s s' : B32) :
    ∀ (order : List UInt8) (r r' : B32),
    Twin (fun a b => a.1 = b.1) (multLoop G indexes l s order r) (multLoop G indexes l' s' order r')
  | [], _, _ => Twin.branch Iff.rfl (fun _ => Twin.pure rfl) (fun _ => Twin.pure rfl)
  | o :: order, _, _ => by
    unfold multLoop
    refine Twin.branch Iff.rfl (fun _ => ?_) (fun _ => Twin.pure rfl)
    refine Twin.bind (twin_ld (like_indexes h) _) fun r r' hr => ?_
    rw [hr]
    refine Twin.bind (twin_same _) ?_
    rintro lp _ rfl
    refine Twin.bind (twin_call ..) fun _ _ h1 => Twin.branch (by rw [h1]) (fun _ => Twin.pure rfl) fun _ => ?_
    exact Twin.bind (twin_call ..) fun _ _ _ => multLoop_twin h indexes s s' order _ _

theorem thresholdmult_twin {l l' : List Share} (h : SameIndexes l l') (junk : UInt8) (s s' : B32) :
    Twin (fun a b => a.1 = b.1) (thresholdmult G junk s l) (thresholdmult G junk s' l') := by
  have hl : l.length = l'.length := by simpa using congrArg List.length h
  unfold thresholdmult
  rw [← hl]
  split
  · exact twin_ub _
  · refine Twin.branch Iff.rfl (fun _ => Twin.pure rfl) fun _ => ?_
    refine Twin.bind (sortParts_twin h) ?_
    rintro order _ rfl
    refine Twin.bind (fillIndexes_same h ..) ?_
    rintro indexes _ rfl
    exact multLoop_twin G h ..

theorem tevaluate_twin (k k' : Share) (b b' : B32) (self : UInt8) (indexes : List UInt8) (z z' : Share) :
    Twin (fun a b => a.1 = b.1) (tevaluate G k b self indexes z) (tevaluate G k' b' self indexes z') := by
  unfold tevaluate
  refine Twin.bind (twin_same _) ?_
  rintro lp _ rfl
  refine Twin.bind (evaluate_twin ..) fun q q' h => ?_
  exact Twin.branch (by rw [h]) (fun _ => Twin.pure rfl) (fun _ => Twin.pure rfl)

theorem combineLoop_twin {l l' : List Share} (h : SameIndexes l l') : ∀ (order : List UInt8) (r r' : B32),
    Twin (fun _ _ => True) (combineLoop G l order r) (combineLoop G l' order r')
  | [], _, _ => Twin.branch Iff.rfl (fun _ => Twin.pure trivial) (fun _ => Twin.pure trivial)
  | o :: order, _, _ => by
    unfold combineLoop
    refine Twin.branch Iff.rfl (fun _ => ?_) (fun _ => Twin.pure trivial)
    refine Twin.bind (twin_ld (like_indexes h) _) fun r r' hr => ?_
    exact Twin.bind (twin_call ..) fun _ _ _ => combineLoop_twin h order _ _

theorem thresholdcombine_twin {l l' : List Share} (h : SameIndexes l l') (r r' : B32) :
    Twin (fun a b => a.1 = b.1) (thresholdcombine G l r) (thresholdcombine G l' r') := by
  have hl : l.length = l'.length := by simpa using congrArg List.length h
  unfold thresholdcombine
  rw [← hl]
  refine Twin.branch Iff.rfl (fun _ => Twin.pure rfl) fun _ => ?_
  split
  · exact twin_ub _
  · refine Twin.bind (sortParts_twin h) ?_
    rintro order _ rfl
    exact Twin.bind (combineLoop_twin G h ..) fun _ _ _ => Twin.pure rfl

theorem hash3tdh_twin (mlock : Bool) (s1 s1' s2 s2' : B32) (k k' z z' : Share) (alpha alpha' : B32) {ssid ssid' : Bytes}
    (hs : ssid.length = ssid'.length) (ssidLen : UInt16) (b b' : Share) :
    Twin (fun a b => a.1 = b.1) (hash3tdh G mlock s1 s2 k z alpha ssid ssidLen b)
      (hash3tdh G mlock s1' s2' k' z' alpha' ssid' ssidLen b') := by
  unfold hash3tdh
  refine Twin.bind (evaluate_twin ..) fun q q' h => Twin.branch (by rw [h]) (fun _ => Twin.pure rfl) fun _ => ?_
  refine Twin.bind (twin_rd hs ..) fun ss ss' _ => ?_
  refine Twin.bind (hashToGroup_twin G mlock (by rw [Vector.length_toList, Vector.length_toList]) ..) fun p p' h => ?_
  refine Twin.branch (by rw [h]) (fun _ => Twin.pure rfl) fun _ => ?_
  refine Twin.bind (evaluate_twin ..) fun q q' h => Twin.branch (by rw [h]) (fun _ => Twin.pure rfl) fun _ => ?_
  exact Twin.bind (twin_call ..) fun _ _ _ => Twin.pure rfl

/-! ### dkg.c -/

theorem powLoop_twin (z : B32) : ∀ (m : ℕ) (t t' : B32), Twin (fun _ _ => True) (powLoop z m t) (powLoop z m t')
  | 0, _, _ => Twin.branch Iff.rfl (fun _ => Twin.pure trivial) (fun _ => Twin.pure trivial)
  | m + 1, _, _ => Twin.branch Iff.rfl (fun _ => powLoop_twin z m _ _) (fun _ => Twin.pure trivial)

theorem polyLoop_twin (z : B32) : ∀ (a a' : List B32) (t : ℕ) (v v' : B32), a.length = a'.length →
    Twin (fun _ _ => True) (polyLoop z a t v) (polyLoop z a' t v')
  | [], [], _, _, _, _ => Twin.branch Iff.rfl (fun _ => Twin.pure trivial) (fun _ => Twin.pure trivial)
  | [], _ :: _, _, _, _, h => by cases h
  | _ :: _, [], _, _, _, h => by cases h
  | _ :: a, _ :: a', t, v, v', h => by
    unfold polyLoop
    refine Twin.branch Iff.rfl (fun _ => ?_) (fun _ => Twin.pure trivial)
    refine Twin.bind (powLoop_twin ..) fun _ _ _ => Twin.bind (twin_touch ..) fun _ _ _ => ?_
    exact polyLoop_twin z a a' _ _ _ (by simpa using h)

theorem polynom_twin (j : UInt8) {a a' : List B32} (h : a.length = a'.length) :
    Twin (fun _ _ => True) (polynom j a) (polynom j a') := by
  unfold polynom
  refine Twin.bind (twin_ld (like_true h) _) fun _ _ _ => ?_
  exact Twin.bind (polyLoop_twin _ _ _ _ _ _ (by simp [h])) fun _ _ _ => Twin.pure trivial

theorem commitLoop_twin (rnd rnd' : ℕ → B32) : ∀ (m k : ℕ) (c c' : List B32), Like (fun _ _ => True) c c' →
    Twin (Like fun _ _ => True) (commitLoop G rnd m k c) (commitLoop G rnd' m k c')
  | 0, _, _, _, h => Twin.branch Iff.rfl (fun _ => Twin.pure h) (fun _ => Twin.pure h)
  | m + 1, k, c, c', h => by
    unfold commitLoop
    refine Twin.branch Iff.rfl (fun _ => ?_) (fun _ => Twin.pure h)
    refine Twin.bind (twin_call ..) fun _ _ _ => Twin.bind (twin_st h _ trivial) fun _ _ h' => ?_
    exact commitLoop_twin rnd rnd' m _ _ _ h'

theorem start_twin (mlock : Bool) (n threshold : UInt8) (rnd rnd' : ℕ → B32) {c c' : List B32} {s s' : List Share}
    (hc : c.length = c'.length) (hs : s.length = s'.length) :
    Twin (fun a b => a.1 = b.1) (start G mlock n threshold rnd c s) (start G mlock n threshold rnd' c' s') := by
  unfold start
  split
  · exact twin_ub _
  · refine Twin.bind (twin_call ..) fun _ _ _ => Twin.branch Iff.rfl (fun _ => Twin.pure rfl) fun _ => ?_
    refine Twin.bind (commitLoop_twin G rnd rnd' _ _ _ _ (like_true hc)) fun _ _ _ => ?_
    refine Twin.bind (twin_forLeU8 (Q := Like fun _ _ => True) n (fun i a b hab => ?_) _ _ _ _ (like_true hs)) fun _ _ _ =>
      Twin.pure rfl
    unfold dealStep
    split
    · exact twin_ub _
    · exact Twin.bind (polynom_twin _ (by simp)) fun _ _ _ => twin_st hab _ trivial

theorem verifyCommitment_twin (s : B32) (threshold self i : UInt8) (c : List B32) (sh sh' : Share) :
    Twin (· = ·) (verifyCommitment G s threshold self i c sh) (verifyCommitment G s threshold self i c sh') := by
  unfold verifyCommitment
  refine Twin.branch Iff.rfl (fun _ => Twin.pure rfl) fun _ => ?_
  refine Twin.bind (twin_call ..) fun _ _ _ => ?_
  refine Twin.bind (twin_same _) ?_
  rintro c0 _ rfl
  refine Twin.bind (twin_same _) ?_
  rintro r _ rfl
  cases r with
  | none => exact Twin.pure rfl
  | some v1 =>
    refine Twin.bind (twin_call ..) fun _ _ h => ?_
    exact Twin.branch (by rw [h]) (fun _ => Twin.pure rfl) (fun _ => Twin.pure rfl)

theorem verifyAll_twin (s : B32) (n threshold self : UInt8) (c : List (List B32)) {shares shares' : List Share}
    (hs : shares.length = shares'.length) : ∀ (fuel : ℕ) (i : UInt8) (fails : List UInt8) (len : UInt8),
    Twin (· = ·) (verifyAll G s n threshold self c shares fuel i fails len)
      (verifyAll G s n threshold self c shares' fuel i fails len)
  | 0, _, _, _ => twin_ub _
  | fuel + 1, i, fails, len => by
    unfold verifyAll
    refine Twin.branch Iff.rfl (fun _ => ?_) (fun _ => twin_same _)
    refine Twin.branch Iff.rfl (fun _ => verifyAll_twin s n threshold self c hs fuel _ _ _) fun _ => ?_
    split
    · exact twin_ub _
    · refine Twin.bind (twin_same _) ?_
      rintro cs _ rfl
      refine Twin.bind (twin_ld (like_true hs) _) fun sh sh' _ => ?_
      refine Twin.bind (verifyCommitment_twin ..) ?_
      rintro r _ rfl
      refine Twin.branch Iff.rfl (fun _ => Twin.pure rfl) fun _ => ?_
      refine Twin.branch Iff.rfl (fun _ => verifyAll_twin s n threshold self c hs fuel _ _ _) fun _ => ?_
      refine Twin.bind (twin_same _) ?_
      rintro f _ rfl
      exact verifyAll_twin s n threshold self c hs fuel _ _ _

theorem sameIndexes_cons {a b : Share} {l l' : List Share} :
    SameIndexes (a :: l) (b :: l') ↔ a.index = b.index ∧ SameIndexes l l' := by
  simp [SameIndexes]

theorem finishLoop_twin (self : UInt8) : ∀ (l l' : List Share) (i : ℕ) (v v' : B32), SameIndexes l l' →
    Twin (fun _ _ => True) (finishLoop self l i v) (finishLoop self l' i v')
  | [], [], _, _, _, _ => Twin.branch Iff.rfl (fun _ => Twin.pure trivial) (fun _ => Twin.pure trivial)
  | [], _ :: _, _, _, _, h => by simp [SameIndexes] at h
  | _ :: _, [], _, _, _, h => by simp [SameIndexes] at h
  | a :: l, b :: l', i, v, v', h => by
    obtain ⟨h1, h2⟩ := sameIndexes_cons.1 h
    unfold finishLoop
    refine Twin.branch Iff.rfl (fun _ => ?_) (fun _ => Twin.pure trivial)
    refine Twin.bind (twin_touch ..) fun _ _ _ => ?_
    rw [h1]
    exact Twin.bind (twin_same _) fun _ _ _ => finishLoop_twin self l l' _ _ _ h2

theorem finish_twin (n : UInt8) {l l' : List Share} (h : SameIndexes l l') (self : UInt8) (xi xi' : Share) :
    Twin (fun _ _ => True) (finish n l self xi) (finish n l' self xi') := by
  have hl : l.length = l'.length := by simpa using congrArg List.length h
  unfold finish
  have hr : Twin (SameIndexes) (T.rd l 0 n.toNat) (T.rd l' 0 n.toNat) := by
    refine .inl ⟨rfl, ?_⟩
    rw [res_rd, res_rd]
    unfold Verif.rd
    rw [← hl]
    split
    · show SameIndexes _ _
      unfold SameIndexes at h ⊢
      rw [List.map_take, List.map_take, List.map_drop, List.map_drop, h]
    · rfl
  exact Twin.bind hr fun a b hab => Twin.bind (finishLoop_twin self a b _ _ _ hab) fun _ _ _ => Twin.pure trivial

theorem reconLoop_twin (indexes : List UInt8) : ∀ (l l' : List Share) (i : ℕ) (v v' : B32), SameIndexes l l' →
    Twin (fun _ _ => True) (reconLoop indexes l i v) (reconLoop indexes l' i v')
  | [], [], _, _, _, _ => Twin.branch Iff.rfl (fun _ => Twin.pure trivial) (fun _ => Twin.pure trivial)
  | [], _ :: _, _, _, _, h => by simp [SameIndexes] at h
  | _ :: _, [], _, _, _, h => by simp [SameIndexes] at h
  | a :: l, b :: l', i, v, v', h => by
    obtain ⟨h1, h2⟩ := sameIndexes_cons.1 h
    unfold reconLoop
    refine Twin.branch Iff.rfl (fun _ => ?_) (fun _ => Twin.pure trivial)
    refine Twin.bind (twin_touch ..) fun _ _ _ => ?_
    rw [h1]
    exact Twin.bind (twin_same _) fun _ _ _ => reconLoop_twin indexes l l' _ _ _ h2

theorem reconstruct_twin {l l' : List Share} (h : SameIndexes l l') :
    Twin (fun _ _ => True) (reconstruct l) (reconstruct l') := by
  have hl : l.length = l'.length := by simpa using congrArg List.length h
  unfold reconstruct
  rw [← hl]
  split
  · exact twin_ub _
  · refine Twin.bind (twin_touch ..) fun _ _ _ => ?_
    have h' : l.map (·.index) = l'.map (·.index) := h
    rw [h']
    exact reconLoop_twin _ l l' _ _ _ h

/-! ### mpmult.c -/

theorem mulStart_twin {a a' b b' : Share} (ha : a.index = a'.index) (hb : b.index = b'.index) (peers threshold : UInt8)
    (rnd rnd' : ℕ → B32) {out out' : List Share} (h : out.length = out'.length) :
    Twin (fun a b => a.1 = b.1) (mulStart a b peers threshold rnd out) (mulStart a' b' peers threshold rnd' out') := by
  unfold mulStart
  refine Twin.branch (by rw [ha, hb]) (fun _ => Twin.pure rfl) fun _ => ?_
  refine Twin.branch Iff.rfl (fun _ => Twin.pure rfl) fun _ => ?_
  refine Twin.branch Iff.rfl (fun _ => Twin.pure rfl) fun _ => ?_
  exact Twin.bind (createShares_twin _ _ _ _ _ _ h) fun _ _ _ => Twin.pure rfl

theorem mulLoop_twin : ∀ (l l' : List (B32 × B32)) (i : ℕ) (v v' : B32), l.length = l'.length →
    Twin (fun _ _ => True) (mulLoop l i v) (mulLoop l' i v')
  | [], [], _, _, _, _ => Twin.branch Iff.rfl (fun _ => Twin.pure trivial) (fun _ => Twin.pure trivial)
  | [], _ :: _, _, _, _, h => by cases h
  | _ :: _, [], _, _, _, h => by cases h
  | _ :: l, _ :: l', i, v, v', h => by
    unfold mulLoop
    refine Twin.branch Iff.rfl (fun _ => ?_) (fun _ => Twin.pure trivial)
    exact Twin.bind (twin_touch ..) fun _ _ _ => mulLoop_twin l l' _ _ _ (by simpa using h)

theorem mulFinish_twin (s s' : B32) {l l' : List (UInt8 × Share)} (h : l.map (·.1) = l'.map (·.1)) (peer : UInt8) :
    Twin (fun _ _ => True) (mulFinish s l peer) (mulFinish s' l' peer) := by
  have hl : l.length = l'.length := by simpa using congrArg List.length h
  unfold mulFinish
  by_cases h0 : l.length = 0
  · rw [dif_pos h0, dif_pos (hl ▸ h0)]
    exact twin_ub _
  · rw [dif_neg h0, dif_neg (hl ▸ h0)]
    rw [h]
    refine Twin.bind (twin_same _) fun _ _ _ => ?_
    exact Twin.bind (mulLoop_twin _ _ _ _ _ (by simp [hl])) fun _ _ _ => Twin.pure trivial

end

/-! ## Runs without failing calls -/

theorem clean_nil : Clean [] := ⟨fun _ _ h => by cases h⟩

theorem _root_.Verif.Spec.Timing.Clean.append {e e' : List Ev} (h : Clean e) (h' : Clean e') : Clean (e ++ e') := by
  refine ⟨fun f r hm => ?_⟩
  rcases List.mem_append.mp hm with hm | hm
  · exact h.ret f r hm
  · exact h'.ret f r hm

theorem _root_.Verif.Spec.Timing.Clean.bind {x : T α} {f : α → T β} (h : Clean x.evs) (hf : ∀ a, x.res = .ok a → Clean (f a).evs) :
    Clean (x >>= f).evs := by
  cases hx : x.res with
  | ok a => rw [evs_bind_ok hx]; exact h.append (hf a hx)
  | ub u => rw [evs_bind_ub hx]; exact h

theorem _root_.Verif.Spec.Timing.Clean.branch {c : Prop} [Decidable c] {x y : T α} (h1 : c → Clean x.evs) (h2 : ¬ c → Clean y.evs) :
    Clean (branch c x y).evs := by
  refine ⟨fun f r hm => ?_⟩
  unfold T.branch at hm
  rcases List.mem_cons.mp hm with hm | hm
  · cases hm
  · split at hm
    · rename_i h; exact (h1 h).ret f r hm
    · rename_i h; exact (h2 h).ret f r hm

theorem clean_call {f : Fn} {r : Int} (h : r = if f = .valid then 1 else 0) : Clean (call f r).evs := by
  refine ⟨fun g s hm => ?_⟩
  simp only [call, List.mem_singleton, Ev.call.injEq] at hm
  obtain ⟨rfl, rfl⟩ := hm
  exact h

theorem clean_access {i n : ℕ} : Clean [.access i n] := by
  refine ⟨fun f r hm => ?_⟩
  simp at hm

theorem clean_forLeU8 {σ : Type} {body : UInt8 → σ → T σ} (n : UInt8) (hb : ∀ i s, Clean (body i s).evs) :
    ∀ (fuel : ℕ) (i : UInt8) (s : σ), Clean (T.forLeU8 body n fuel i s).evs
  | 0, _, _ => clean_nil
  | fuel + 1, i, s => by
    unfold T.forLeU8
    exact Clean.branch (fun _ => Clean.bind (hb i s) fun a _ => clean_forLeU8 n hb fuel (i + 1) a) (fun _ => clean_nil)

/-- Traces that agree and have no failing call are the same. -/
theorem _root_.Verif.Spec.Timing.Agree.exact {e e' : List Ev} (h : Agree e e') (hc : Clean e) (hc' : Clean e') : e = e' := by
  rcases h with h | ⟨p, f, r, r', s, s', h⟩
  · exact h
  · exfalso
    have h1 := hc.ret f r (by simp)
    have h2 := hc'.ret f r' (by simp)
    exact h (h1.trans h2.symm)

section
variable (G : Type) [Ristretto G] [Hashes]

theorem clen_clean (left : ℕ) : Clean (clen left).evs := Clean.branch (fun _ => clean_nil) (fun _ => clean_nil)

theorem xmdLoop_clean (b0 : B64) (dp : Bytes) (ell : ℕ) : ∀ (fuel i : ℕ) (bi : B64) (out : Bytes) (off left : ℕ),
    Clean (xmdLoop b0 dp ell fuel i bi out off left).evs
  | 0, _, _, _, _, _ => clean_nil
  | fuel + 1, i, bi, out, off, left => by
    unfold xmdLoop
    refine Clean.branch (fun _ => ?_) (fun _ => clean_nil)
    refine Clean.bind (clen_clean _) fun _ _ => Clean.bind clean_access fun _ _ => ?_
    refine Clean.bind (clen_clean _) fun _ _ => Clean.bind clean_access fun _ _ => ?_
    exact xmdLoop_clean b0 dp ell fuel _ _ _ _ _

theorem expandMessageXmd_clean (msg : Bytes) (msgLen : UInt8) (dst : Bytes) (dstLen len : UInt8) (o : Bytes) :
    Clean (expandMessageXmd msg msgLen dst dstLen len o).evs := by
  unfold expandMessageXmd
  refine Clean.branch (fun _ => clean_nil) fun _ => Clean.branch (fun _ => clean_nil) fun _ => ?_
  refine Clean.bind clean_access fun _ _ => Clean.bind clean_access fun _ _ => Clean.bind clean_access fun _ _ => ?_
  refine Clean.bind (clen_clean _) fun _ _ => Clean.bind clean_access fun _ _ => ?_
  exact Clean.bind (xmdLoop_clean ..) fun _ _ => clean_nil

theorem hashToGroup_clean {mlock : Bool} (hm : mlock = true) (msg : Bytes) (msgLen : UInt8) (p : B32) :
    Clean (hashToGroup G mlock msg msgLen p).evs := by
  subst hm
  unfold hashToGroup
  refine Clean.bind (clean_call rfl) fun _ _ => Clean.branch (fun _ => clean_nil) fun _ => ?_
  exact Clean.bind (expandMessageXmd_clean ..) fun a _ => Clean.branch (fun _ => clean_nil) (fun _ => clean_nil)

theorem finalize_clean {mlock : Bool} {x : Bytes} {xLen : UInt16} {N : B32} {o y : B64}
    (h : (finalize mlock x xLen N o).res = .ok (0, y)) : Clean (finalize mlock x xLen N o).evs := by
  cases mlock
  · simp [finalize, mlockRet] at h
  · unfold finalize
    refine Clean.bind (clean_call rfl) fun _ _ => Clean.branch (fun _ => clean_nil) fun _ => ?_
    exact Clean.bind clean_access fun _ _ => clean_nil

theorem blind_clean {mlock : Bool} {s : B32} {x : Bytes} {xLen : UInt8} {rnd r b r1 b1 : B32}
    (h : (blind G mlock s x xLen rnd r b).res = .ok (0, r1, b1)) : Clean (blind G mlock s x xLen rnd r b).evs := by
  cases mlock
  · simp [blind, mlockRet] at h
  · unfold blind at h ⊢
    refine Clean.bind (clean_call rfl) fun _ _ => Clean.branch (fun _ => clean_nil) fun _ => ?_
    refine Clean.bind (hashToGroup_clean G rfl ..) fun a ha => Clean.branch (fun _ => clean_nil) fun h0 => ?_
    refine Clean.bind (clean_call ?_) fun _ _ => Clean.branch (fun _ => clean_nil) (fun _ => clean_nil)
    by_contra hq
    simp only [res_bind, res_call, C.ok_bind, res_branch, mlockRet, ha, if_true, ne_eq, not_true_eq_false, if_false, res_pure] at h
    rw [if_neg h0, if_pos (by simpa using hq)] at h
    cases h

theorem evaluate_clean {k b z : B32} (h : (Oprf.evaluate G k b z).1 = 0) : Clean (evaluate G k b z).evs := by
  unfold evaluate
  exact Clean.bind (clean_call (by simpa [Oprf.evaluate] using h)) fun _ _ => clean_nil

theorem unblind_clean {mlock : Bool} {r Z N N1 : B32} (h : (unblind G mlock r Z N).res = .ok (0, N1)) :
    Clean (unblind G mlock r Z N).evs := by
  unfold unblind at h ⊢
  simp only [res_bind, res_call, C.ok_bind, res_branch, res_pure] at h
  by_cases h1 : isValidPoint G Z ≠ 1
  · rw [if_pos h1] at h; cases h
  rw [if_neg h1] at h
  by_cases h2 : -1 = mlockRet mlock
  · rw [if_pos h2] at h; cases h
  rw [if_neg h2] at h
  by_cases h3 : (scalarInvert r).1 ≠ 0
  · rw [if_pos h3] at h; cases h
  rw [if_neg h3] at h
  by_cases h4 : (scalarmult G N (scalarInvert r).2 Z).1 ≠ 0
  · rw [if_pos h4] at h; cases h
  have hm : mlock = true := by cases mlock <;> simp [mlockRet] at h2 ⊢
  subst hm
  refine Clean.bind (clean_call (by simpa using h1)) fun _ _ => Clean.branch (fun _ => clean_nil) fun _ => ?_
  refine Clean.bind (clean_call rfl) fun _ _ => Clean.branch (fun _ => clean_nil) fun _ => ?_
  refine Clean.bind (clean_call (by simpa using h3)) fun _ _ => Clean.branch (fun _ => clean_nil) fun _ => ?_
  exact Clean.bind (clean_call (by simpa using h4)) fun _ _ => Clean.branch (fun _ => clean_nil) fun _ => clean_nil

theorem coeffLoop_clean (index : UInt8) : ∀ (peers : List UInt8) (j : ℕ) (acc : B32 × B32),
    Clean (coeffLoop index peers j acc).evs
  | [], _, _ => Clean.branch (fun _ => clean_nil) (fun _ => clean_nil)
  | p :: peers, j, acc => by
    unfold coeffLoop
    refine Clean.branch (fun _ => Clean.bind clean_access fun _ _ => ?_) (fun _ => clean_nil)
    exact Clean.branch (fun _ => coeffLoop_clean index peers _ _) (fun _ => coeffLoop_clean index peers _ _)

theorem coeff_clean (index : UInt8) (peers : List UInt8) : Clean (coeff index peers).evs := by
  unfold coeff
  exact Clean.bind (coeffLoop_clean ..) fun _ _ => clean_nil

theorem mulPow_clean (x : B32) : ∀ (j : ℕ) (t : B32), Clean (mulPow x j t).evs
  | 0, _ => Clean.branch (fun _ => clean_nil) (fun _ => clean_nil)
  | j + 1, _ => Clean.branch (fun _ => mulPow_clean x j _) (fun _ => clean_nil)

theorem shareLoop_clean (x : B32) : ∀ (a : List B32) (j : ℕ) (v : B32), Clean (shareLoop x a j v).evs
  | [], _, _ => Clean.branch (fun _ => clean_nil) (fun _ => clean_nil)
  | _ :: a, j, v => by
    unfold shareLoop
    refine Clean.branch (fun _ => ?_) (fun _ => clean_nil)
    exact Clean.bind clean_access fun _ _ => Clean.bind (mulPow_clean ..) fun _ _ => shareLoop_clean x a _ _

theorem createShares_clean (s : B32) (n threshold : UInt8) (rnd : ℕ → B32) (out : List Share) :
    Clean (createShares s n threshold rnd out).evs := by
  unfold createShares
  split
  · exact clean_nil
  · refine Clean.bind clean_access fun _ _ => clean_forLeU8 n (fun i a => ?_) _ _ _
    unfold shareStep
    split
    · exact clean_nil
    · exact Clean.bind (shareLoop_clean ..) fun _ _ => clean_access

theorem sink_clean : ∀ (d : ℕ) (arr indexes : List UInt8), Clean (sink d arr indexes).evs
  | 0, _, _ => Clean.branch (fun _ => clean_nil) (fun _ => clean_nil)
  | d + 1, arr, indexes => by
    unfold sink
    refine Clean.branch (fun _ => ?_) (fun _ => clean_nil)
    refine Clean.bind clean_access fun _ _ => Clean.bind clean_access fun _ _ => ?_
    refine Clean.branch (fun _ => ?_) (fun _ => clean_nil)
    refine Clean.bind clean_access fun _ _ => Clean.bind clean_access fun _ _ => ?_
    refine Clean.bind clean_access fun _ _ => Clean.bind clean_access fun _ _ => ?_
    refine Clean.bind clean_access fun _ _ => Clean.bind clean_access fun _ _ => ?_
    exact sink_clean d _ _

theorem sortLoop_clean : ∀ (k c : ℕ) (arr indexes : List UInt8), Clean (sortLoop k c arr indexes).evs
  | 0, _, _, _ => Clean.branch (fun _ => clean_nil) (fun _ => clean_nil)
  | k + 1, c, arr, indexes => by
    unfold sortLoop
    exact Clean.branch (fun _ => Clean.bind (sink_clean ..) fun _ _ => sortLoop_clean k _ _ _) (fun _ => clean_nil)

theorem sortParts_clean (parts : List Share) : Clean (sortParts parts).evs := by
  unfold sortParts
  exact Clean.bind clean_access fun _ _ => Clean.bind (sortLoop_clean ..) fun _ _ => clean_nil

theorem fillIndexes_clean (l : List Share) : ∀ (order indexes : List UInt8), Clean (fillIndexes l order indexes).evs
  | [], _ => Clean.branch (fun _ => clean_nil) (fun _ => clean_nil)
  | o :: order, _ => by
    unfold fillIndexes
    refine Clean.branch (fun _ => ?_) (fun _ => clean_nil)
    exact Clean.bind clean_access fun _ _ => Clean.bind clean_access fun _ _ => fillIndexes_clean l order _

variable {G} in
theorem scalarmult_enc_of {q n p : B32} (h : (scalarmult G q n p).1 = 0) : ∃ P : G, (scalarmult G q n p).2 = enc P := by
  unfold scalarmult at h ⊢
  cases hd : dec (G := G) p with
  | none => rw [hd] at h; cases h
  | some P => exact ⟨_, rfl⟩

theorem multLoop_clean (indexes : List UInt8) (l : List Share) (s : B32) : ∀ (order : List UInt8) (P : G) (r1 : B32),
    (multLoop G indexes l s order (enc P)).res = .ok (0, r1) → Clean (multLoop G indexes l s order (enc P)).evs
  | [], _, _, _ => Clean.branch (fun _ => clean_nil) (fun _ => clean_nil)
  | o :: order, P, r1, h => by
    unfold multLoop at h ⊢
    refine Clean.branch (fun _ => ?_) (fun _ => clean_nil)
    refine Clean.bind clean_access fun r hr => Clean.bind (coeff_clean ..) fun lp hl => ?_
    simp only [res_branch, if_true, res_bind, res_ld, C.ok_bind, res_call, res_pure] at h
    rw [res_ld] at hr
    rw [hr, C.ok_bind, hl, C.ok_bind] at h
    by_cases hq : (scalarmult G s lp r.value).1 ≠ 0
    · rw [if_pos hq] at h; cases h
    rw [if_neg hq] at h
    have hq0 := not_not.mp hq
    refine Clean.bind (clean_call (by simpa using hq0)) fun _ _ => Clean.branch (fun _ => clean_nil) fun _ => ?_
    obtain ⟨Q, hQ⟩ := scalarmult_enc_of hq0
    rw [hQ, pointAdd_enc] at h ⊢
    exact Clean.bind (clean_call rfl) fun _ _ => multLoop_clean indexes l s order _ _ h

theorem thresholdmult_clean {junk : UInt8} {s : B32} {l : List Share} {r1 : B32}
    (h : (thresholdmult G junk s l).res = .ok (0, r1)) : Clean (thresholdmult G junk s l).evs := by
  unfold thresholdmult at h ⊢
  split at h
  · cases h
  · rename_i h0
    rw [if_neg h0]
    rw [res_branch] at h
    refine Clean.branch (fun _ => clean_nil) fun h1 => ?_
    rw [if_neg h1] at h
    refine Clean.bind (sortParts_clean _) fun order ho => Clean.bind (fillIndexes_clean ..) fun indexes hi => ?_
    rw [res_bind, ho, C.ok_bind, res_bind, hi, C.ok_bind] at h
    rw [← enc_zero (G := G)] at h ⊢
    exact multLoop_clean G _ _ _ _ _ _ h

theorem tevaluate_clean {k z z1 : Share} {b : B32} {self : UInt8} {indexes : List UInt8}
    (h : (tevaluate G k b self indexes z).res = .ok (0, z1)) : Clean (tevaluate G k b self indexes z).evs := by
  unfold tevaluate at h ⊢
  refine Clean.bind (coeff_clean ..) fun lp hl => ?_
  rw [res_bind, hl, C.ok_bind, res_bind, evaluate_res, C.ok_bind, res_branch] at h
  by_cases hq : (Oprf.evaluate G (scalarMul k.value lp) b z.value).1 ≠ 0
  · rw [if_pos hq] at h; cases h
  exact Clean.bind (evaluate_clean G (not_not.mp hq)) fun _ _ => Clean.branch (fun _ => clean_nil) fun _ => clean_nil

theorem hash3tdh_clean {mlock : Bool} {s1 s2 : B32} {k z : Share} {alpha : B32} {ssid : Bytes} {ssidLen : UInt16}
    {b b1 : Share} (h : (hash3tdh G mlock s1 s2 k z alpha ssid ssidLen b).res = .ok (0, b1)) :
    Clean (hash3tdh G mlock s1 s2 k z alpha ssid ssidLen b).evs := by
  unfold hash3tdh at h ⊢
  rw [res_bind, evaluate_res, C.ok_bind, res_branch] at h
  by_cases h1 : (Oprf.evaluate G k.value alpha b.value).1 ≠ 0
  · rw [if_pos h1] at h; cases h
  rw [if_neg h1, res_bind] at h
  refine Clean.bind (evaluate_clean G (not_not.mp h1)) fun q hq => Clean.branch (fun _ => clean_nil) fun _ => ?_
  rw [evaluate_res] at hq
  cases hq
  refine Clean.bind clean_access fun ss hss => ?_
  rw [hss, C.ok_bind, res_bind] at h
  have hm : mlock = true := by
    cases mlock
    · exfalso
      rw [hashToGroup_res, Oprf.hashToGroup, if_pos (by rfl), C.ok_bind, res_branch, if_pos (by simp)] at h
      cases h
    · rfl
  refine Clean.bind (hashToGroup_clean G hm ..) fun p hp => Clean.branch (fun _ => clean_nil) fun h2 => ?_
  rw [hp, C.ok_bind, res_branch, if_neg h2, res_bind, evaluate_res, C.ok_bind, res_branch] at h
  by_cases h3 : (Oprf.evaluate G z.value p.2 s2).1 ≠ 0
  · rw [if_pos h3] at h; cases h
  refine Clean.bind (evaluate_clean G (not_not.mp h3)) fun q hq => Clean.branch (fun _ => clean_nil) fun _ => ?_
  rw [evaluate_res] at hq
  cases hq
  obtain ⟨P, hP⟩ := scalarmult_enc_of (not_not.mp h1)
  obtain ⟨Q, hQ⟩ := scalarmult_enc_of (not_not.mp h3)
  refine Clean.bind (clean_call ?_) fun _ _ => clean_nil
  unfold Oprf.evaluate
  rw [hP, hQ, pointAdd_enc]
  rfl

theorem powLoop_clean (z : B32) : ∀ (m : ℕ) (t : B32), Clean (powLoop z m t).evs
  | 0, _ => Clean.branch (fun _ => clean_nil) (fun _ => clean_nil)
  | m + 1, _ => Clean.branch (fun _ => powLoop_clean z m _) (fun _ => clean_nil)

theorem polyLoop_clean (z : B32) : ∀ (a : List B32) (t : ℕ) (v : B32), Clean (polyLoop z a t v).evs
  | [], _, _ => Clean.branch (fun _ => clean_nil) (fun _ => clean_nil)
  | _ :: a, t, v => by
    unfold polyLoop
    refine Clean.branch (fun _ => ?_) (fun _ => clean_nil)
    exact Clean.bind (powLoop_clean ..) fun _ _ => Clean.bind clean_access fun _ _ => polyLoop_clean z a _ _

theorem commitLoop_clean {rnd : ℕ → B32} : ∀ (m k : ℕ) (c : List B32), (∀ i < k + m, maskedVal (rnd i) ≠ 0) →
    Clean (commitLoop G rnd m k c).evs
  | 0, _, _, _ => Clean.branch (fun _ => clean_nil) (fun _ => clean_nil)
  | m + 1, k, c, h => by
    unfold commitLoop
    refine Clean.branch (fun _ => ?_) (fun _ => clean_nil)
    refine Clean.bind (clean_call ?_) fun _ _ => Clean.bind clean_access fun _ _ =>
      commitLoop_clean m _ _ fun i hi => h i (by omega)
    have : maskedVal (rnd k) • (base : G) ≠ 0 := by
      intro e
      rcases smul_eq_zero.1 e with e | e
      · exact h k (by omega) e
      · exact base_ne e
    simp [scalarmultBase, enc_eq_zero, this]

theorem start_clean {mlock : Bool} (hm : mlock = true) {n threshold : UInt8} {rnd : ℕ → B32}
    (h : ∀ i < threshold.toNat, maskedVal (rnd i) ≠ 0) (c : List B32) (s : List Share) :
    Clean (start G mlock n threshold rnd c s).evs := by
  subst hm
  unfold start
  split
  · exact clean_nil
  · refine Clean.bind (clean_call rfl) fun _ _ => Clean.branch (fun _ => clean_nil) fun _ => ?_
    refine Clean.bind (commitLoop_clean G _ _ _ (by simpa using h)) fun _ _ => ?_
    refine Clean.bind (clean_forLeU8 n (fun i a => ?_) _ _ _) fun _ _ => clean_nil
    unfold dealStep
    split
    · exact clean_nil
    · refine Clean.bind ?_ fun _ _ => clean_access
      unfold polynom
      exact Clean.bind clean_access fun _ _ => Clean.bind (polyLoop_clean ..) fun _ _ => clean_nil

theorem verifyCommitment_same {s : B32} {threshold self i : UInt8} {c : List B32} {sh sh' : Share} {r : Int}
    (h1 : (scalarmultBase G sh.value).1 = (scalarmultBase G sh'.value).1)
    (h : (verifyCommitment G s threshold self i c sh).res = .ok r) (h' : (verifyCommitment G s threshold self i c sh').res = .ok r) :
    (verifyCommitment G s threshold self i c sh).evs = (verifyCommitment G s threshold self i c sh').evs := by
  unfold verifyCommitment at h h' ⊢
  by_cases hi : i = self
  · simp only [T.branch, hi, if_true]
  · rw [res_branch, if_neg hi, res_bind, res_call, C.ok_bind, res_bind] at h h'
    simp only [T.branch, hi, if_false]
    congr 1
    rw [evs_bind_ok (res_call _ _), evs_bind_ok (res_call _ _), h1]
    congr 1
    cases hc : (T.ld c 0).res with
    | ub u => rw [hc] at h; cases h
    | ok c0 =>
      rw [hc, C.ok_bind, res_bind] at h h'
      rw [evs_bind_ok hc, evs_bind_ok hc]
      congr 1
      cases hv : (verifyLoop G s (B32.ofByte self) c (threshold.toNat - 1) 1 c0).res with
      | ub u => rw [hv] at h; cases h
      | ok x =>
        rw [hv, C.ok_bind] at h h'
        rw [evs_bind_ok hv, evs_bind_ok hv]
        congr 1
        cases x with
        | none => rfl
        | some v1 =>
          dsimp only at h h' ⊢
          rw [res_bind, res_call, C.ok_bind, res_branch] at h h'
          have hm : memcmpRet (scalarmultBase G sh.value).2 v1 = memcmpRet (scalarmultBase G sh'.value).2 v1 := by
            unfold memcmpRet at h h' ⊢
            split at h <;> split at h' <;> rename_i e1 e2
            · rw [if_pos e1, if_pos e2]
            · simp at h h'
              omega
            · simp at h h'
              omega
            · rw [if_neg e1, if_neg e2]
          rw [hm]

theorem finishLoop_clean (self : UInt8) : ∀ (l : List Share) (i : ℕ) (v : B32), Clean (finishLoop self l i v).evs
  | [], _, _ => Clean.branch (fun _ => clean_nil) (fun _ => clean_nil)
  | a :: l, i, v => by
    unfold finishLoop
    refine Clean.branch (fun _ => Clean.bind clean_access fun _ _ => ?_) (fun _ => clean_nil)
    exact Clean.bind (Clean.branch (fun _ => clean_nil) (fun _ => clean_nil)) fun _ _ => finishLoop_clean self l _ _

theorem finish_clean (n : UInt8) (l : List Share) (self : UInt8) (xi : Share) : Clean (finish n l self xi).evs := by
  unfold finish
  exact Clean.bind clean_access fun _ _ => Clean.bind (finishLoop_clean ..) fun _ _ => clean_nil

theorem reconLoop_clean (indexes : List UInt8) : ∀ (l : List Share) (i : ℕ) (v : B32), Clean (reconLoop indexes l i v).evs
  | [], _, _ => Clean.branch (fun _ => clean_nil) (fun _ => clean_nil)
  | a :: l, i, v => by
    unfold reconLoop
    refine Clean.branch (fun _ => Clean.bind clean_access fun _ _ => ?_) (fun _ => clean_nil)
    exact Clean.bind (coeff_clean ..) fun _ _ => reconLoop_clean indexes l _ _

theorem reconstruct_clean (l : List Share) : Clean (reconstruct l).evs := by
  unfold reconstruct
  split
  · exact clean_nil
  · exact Clean.bind clean_access fun _ _ => reconLoop_clean ..

theorem mulStart_clean (a b : Share) (peers threshold : UInt8) (rnd : ℕ → B32) (out : List Share) :
    Clean (mulStart a b peers threshold rnd out).evs := by
  unfold mulStart
  refine Clean.branch (fun _ => clean_nil) fun _ => Clean.branch (fun _ => clean_nil) fun _ =>
    Clean.branch (fun _ => clean_nil) fun _ => ?_
  exact Clean.bind (createShares_clean ..) fun _ _ => clean_nil

theorem mulLoop_clean : ∀ (l : List (B32 × B32)) (i : ℕ) (v : B32), Clean (mulLoop l i v).evs
  | [], _, _ => Clean.branch (fun _ => clean_nil) (fun _ => clean_nil)
  | _ :: l, i, v => by
    unfold mulLoop
    exact Clean.branch (fun _ => Clean.bind clean_access fun _ _ => mulLoop_clean l _ _) (fun _ => clean_nil)

theorem mulFinish_clean (s : B32) (l : List (UInt8 × Share)) (peer : UInt8) : Clean (mulFinish s l peer).evs := by
  unfold mulFinish
  split
  · exact clean_nil
  · refine Clean.bind ⟨fun f r hm => by simp [opened] at hm⟩ fun _ _ => ?_
    exact Clean.bind (mulLoop_clean ..) fun _ _ => clean_nil

end

end Verif.Ct
