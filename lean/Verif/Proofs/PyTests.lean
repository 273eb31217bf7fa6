import Verif.Model.PyTests
import Verif.Proofs.Python

/-!
# What the functions of the wrapper return to the tests
-/

set_option linter.unusedSectionVars false

namespace Verif.PyTests

open Ristretto Verif.Py Verif.Props Spec Spec.Python Toprf

variable {α β γ : Type}

theorem ret_bind (a : α) (k : α → Run β) : (Run.ret a >>= k) = k a := rfl

theorem raised_bind (k : α → Run β) : ((Run.raised : Run α) >>= k) = .raised := rfl

theorem b32At_zero (v : B32) (rest : Bytes) : b32At (v.toList ++ rest) 0 = .ok v := by
  unfold b32At
  rw [rd_ok (by simp), C.ok_bind, List.drop_zero, List.take_left' (by simp), toB32_toList]

theorem shareAt_pack (pre rest : Bytes) (s : Share) (i : ℕ) (h : pre.length = 33 * i) :
    shareAt (pre ++ (pack s ++ rest)) i = .ok s := by
  unfold shareAt b32At
  rw [ld_ok (by simp [pack]; omega), C.ok_bind, rd_ok (by simp [pack]; omega), C.ok_bind, C.ok_bind]
  have e1 : (pre ++ (pack s ++ rest)).drop (33 * i + 1) = s.value.toList ++ rest := by
    rw [← List.drop_drop, ← h, List.drop_left]
    rfl
  have e2 : (pre ++ (pack s ++ rest))[33 * i]'(by simp [pack]; omega) = s.index := by
    rw [List.getElem_append_right (by omega)]
    simp [pack, h]
  rw [e1, e2, List.take_left' (by simp), toB32_toList]

theorem pack_length (s : Share) : (pack s).length = 33 := by simp [pack]

theorem join_packs : ∀ l : List Share, join ((l.map pack).map Val.bytes) = some (l.map pack).flatten
  | [] => rfl
  | s :: l => by
    have ih := join_packs l
    unfold join at ih ⊢
    rw [Option.map_eq_some_iff] at ih
    obtain ⟨m, h1, h2⟩ := ih
    rw [List.map_cons, List.map_cons, List.mapM_cons]
    show (Option.bind (some (pack s)) _).map _ = _
    rw [Option.bind_some, h1]
    show some (pack s ++ m.flatten) = _
    rw [h2]
    rfl

theorem mapC_shares (l : List Share) (rest : Bytes) : ∀ (m : List Share) (pre : Bytes) (i : ℕ), pre.length = 33 * i →
    mapC (shareAt (pre ++ ((m.map pack).flatten ++ rest))) (List.range' i m.length) = .ok m
  | [], _, _, _ => rfl
  | s :: m, pre, i, h => by
    have e : pre ++ (((s :: m).map pack).flatten ++ rest) = pre ++ (pack s ++ ((m.map pack).flatten ++ rest)) := by
      simp
    have e' : pre ++ (((s :: m).map pack).flatten ++ rest) = (pre ++ pack s) ++ ((m.map pack).flatten ++ rest) := by
      simp
    rw [List.length_cons, List.range'_succ, mapC, e, shareAt_pack _ _ _ _ h, C.ok_bind, ← e, e',
      mapC_shares l rest m (pre ++ pack s) (i + 1) (by rw [List.length_append, pack_length]; omega), C.ok_bind]

theorem sharesAt_packs (l : List Share) (rest : Bytes) : sharesAt ((l.map pack).flatten ++ rest) l.length = .ok l := by
  have := mapC_shares l rest l [] 0 rfl
  rw [List.nil_append] at this
  unfold sharesAt
  rw [List.range_eq_range']
  exact this

theorem notBytes_list (b : Bytes) (n : ℕ) (h : b.length = n) : ¬ notBytes (.bytes b) n :=
  notBytes_iff.2 ⟨b, rfl, h⟩

theorem good_packs (l : List Share) : ¬ badParts ((l.map pack).map Val.bytes) := by
  rw [not_badParts]
  intro v hv
  simp only [List.mem_map] at hv
  obtain ⟨b, ⟨s, -, rfl⟩, rfl⟩ := hv
  exact ⟨_, rfl, pack_length s⟩

section
variable [Hashes] (G : Type) [Ristretto G] (junk : UInt8) (scratch : B32)

theorem real_blind (x : Bytes) (hx : x.length ≤ 255) (r : B32) (hr : RandomScalar r) (hH : Spec.hashToGroup G Oprf.sha x ≠ 0) :
    (real G junk scratch).blind r x = .ret (r.toList, (enc (r.val • Spec.hashToGroup G Oprf.sha x)).toList) := by
  have hxl : (UInt8.ofNat x.length).toNat = x.length := by simp; omega
  have h : Oprf.blind G true scratch (x ++ [0]) (UInt8.ofNat x.length) r zero32 zero32 =
      .ok (0, r, enc (r.val • Spec.hashToGroup G Oprf.sha x)) := by
    have hrm : maskedVal r = r.val := maskedVal_canonical hr.1
    unfold Oprf.blind
    rw [if_neg (by simp), Oprf.hashToGroup_ok G (x ++ [0]) _ (by rw [hxl]; simp), hxl, List.take_left' rfl]
    simp only [C.ok_bind, ne_eq, not_true_eq_false, if_false]
    rw [scalarmult_enc_ok _ _ (by rw [hrm]; exact smul_ne_zero hr.val_ne hH), hrm]
    simp
  show checked _ (orRaise (some _) fun len => orRaise (some _) _) = _
  rw [orRaise_some, orRaise_some, h]
  rfl

/-- If the input is hashed to the identity. -/
theorem real_blind_identity (x : Bytes) (hx : x.length ≤ 255) (r : B32) (hH : Spec.hashToGroup G Oprf.sha x = 0) :
    (real G junk scratch).blind r x = .raised := by
  have hxl : (UInt8.ofNat x.length).toNat = x.length := by simp; omega
  have h : ∃ b, Oprf.blind G true scratch (x ++ [0]) (UInt8.ofNat x.length) r zero32 zero32 = .ok (-1, r, b) := by
    refine ⟨enc (0 : G), ?_⟩
    unfold Oprf.blind
    rw [if_neg (by simp), Oprf.hashToGroup_ok G (x ++ [0]) _ (by rw [hxl]; simp), hxl, List.take_left' rfl, hH]
    simp only [C.ok_bind, ne_eq, not_true_eq_false, if_false]
    rw [scalarmult_enc]
    simp [enc_zero]
  obtain ⟨b, h⟩ := h
  show checked _ (orRaise (some _) fun len => orRaise (some _) _) = _
  rw [orRaise_some, orRaise_some, h]
  rfl

theorem real_evaluate (k b : B32) : (real G junk scratch).evaluate k.toList b.toList =
    if (Oprf.evaluate G k b zero32).1 ≠ 0 then .raised else .ret (Oprf.evaluate G k b zero32).2.toList := by
  show checked _ (raiseIf _ <| raiseIf _ <| orRaise (some _) fun k => orRaise (some _) _) = _
  rw [raiseIf_false (notBytes_list _ _ (by simp)), raiseIf_false (notBytes_list _ _ (by simp)), orRaise_some, orRaise_some,
    b32At_zero, C.ok_bind, b32At_zero, C.ok_bind]
  rfl

open Classical in
/-- `evaluate` on the encoding of an element. -/
theorem real_evaluate_enc (k : B32) (P : G) : (real G junk scratch).evaluate k.toList (enc P).toList =
    if maskedVal k • P = 0 then .raised else .ret (enc (maskedVal k • P)).toList := by
  rw [real_evaluate]
  unfold Oprf.evaluate
  rw [scalarmult_enc]
  by_cases h : maskedVal k • P = 0
  · rw [if_pos h, if_pos]
    rw [h, enc_zero, if_pos rfl]
    decide
  · rw [if_neg h, if_neg]
    rw [if_neg (by rwa [enc_eq_zero])]
    exact fun h => h rfl

theorem real_unblind (r : B32) (hr : RandomScalar r) (P : G) (hP : P ≠ 0) :
    (real G junk scratch).unblind r.toList (enc (r.val • P)).toList = .ret (enc P).toList := by
  have h : Oprf.unblind G true r (enc (r.val • P)) zero32 = (0, enc P) := by
    have hr0 : r ≠ zero32 := fun h => hr.val_ne (by simp [h])
    have hi : scalarInvert r = (0, B32.ofZ (r.val)⁻¹) := Prod.ext ((scalarInvert_ret r).2 hr0) (scalarInvert_eq r)
    have e : (r.val)⁻¹ • r.val • P = P := by rw [smul_smul, inv_mul_cancel₀ hr.val_ne, one_smul]
    unfold Oprf.unblind
    simp [isValidPoint, dec_enc, hi, scalarmult, maskedVal_ofZ, e, hP, enc_eq_zero]
  show checked _ (raiseIf _ <| raiseIf _ <| orRaise (some _) fun k => orRaise (some _) _) = _
  rw [raiseIf_false (notBytes_list _ _ (by simp)), raiseIf_false (notBytes_list _ _ (by simp)), orRaise_some, orRaise_some,
    b32At_zero, C.ok_bind, b32At_zero, C.ok_bind, h]
  rfl

theorem real_finalize (x : Bytes) (hx : x.length ≤ 65535) (N : B32) :
    (real G junk scratch).finalize x N.toList = .ret (Hashes.sha512 (Spec.finalizeInput x N.toList)).toList := by
  have hxl16 : (UInt16.ofNat x.length).toNat = x.length := by simp; omega
  have h : Oprf.finalize true (x ++ [0]) (UInt16.ofNat x.length) N (Vector.replicate 64 0) =
      .ok (0, Hashes.sha512 (Spec.finalizeInput x N.toList)) := by
    rw [← C04_finalize_rfc x hx N (Vector.replicate 64 0)]
    unfold Oprf.finalize
    rw [if_neg (by simp), if_neg (by simp), hxl16, rd_ok (by simp), rd_ok (by omega), List.drop_zero, List.drop_zero,
      List.take_left' rfl, List.take_length]
  show checked _ (raiseIf _ <| orRaise (some _) fun len => orRaise (some _) fun x => orRaise (some _) _) = _
  rw [raiseIf_false (notBytes_list _ _ (by simp)), orRaise_some, orRaise_some, orRaise_some, b32At_zero, C.ok_bind]
  rw [show ∀ y, Oprf.finalize true (x ++ [0]) (UInt16.ofNat x.length) N y =
      .ok (0, Hashes.sha512 (Spec.finalizeInput x N.toList)) from fun y => by
    rw [← C04_finalize_rfc x hx N y]
    unfold Oprf.finalize
    rw [if_neg (by simp), if_neg (by simp), hxl16, rd_ok (by simp), rd_ok (by omega), List.drop_zero, List.drop_zero,
      List.take_left' rfl, List.take_length]]
  rfl

/-- A sharing among 5 with threshold 3. -/
theorem real_create (a : ℕ → B32) (s : B32) (hs : s.Canonical) :
    (real G junk scratch).createShares a s.toList 5 3 =
      .ret ((([1, 2, 3, 4, 5] : List UInt8).map fun i =>
        (⟨i, B32.ofZ ((dealPoly s.val 3 a).eval (point i))⟩ : Share)).map pack) := by
  have h := createShares_shares s (NoOverflow.of_canonical hs) 5 3 a (List.replicate 5 zeroShare) (by decide)
      (by decide) List.length_replicate.ge
  rw [List.drop_of_length_le (by rw [List.length_replicate]; decide), List.append_nil] at h
  show plain _ (raiseIf _ <| raiseIf _ <| raiseIf _ <| raiseIf _ <| raiseIf _ <| orRaise (some _) _) = _
  rw [raiseIf_false (notBytes_list _ _ (by simp)), raiseIf_false (by decide), raiseIf_false (by decide),
    raiseIf_false (fits (by decide) (by decide)), raiseIf_false (fits (by decide) (by decide)), orRaise_some, b32At_zero,
    C.ok_bind]
  have e : Toprf.createShares s (u8 5) (u8 3) a (List.replicate (5 : ℤ).toNat zeroShare) =
      Toprf.createShares s 5 3 a (List.replicate 5 zeroShare) := rfl
  rw [e, h]
  rfl

theorem real_thresholdmult (l : List Share) : (real G junk scratch).thresholdmult (l.map pack) =
    checked Vector.toList (.reached (Toprf.thresholdmult G junk scratch l)) := by
  show checked _ (raiseIf _ <| orRaise _ _) = _
  rw [raiseIf_false (good_packs l), join_packs, orRaise_some, List.length_map, List.length_map, sharesAt_packs, C.ok_bind]

theorem real_combine (l : List Share) : (real G junk scratch).thresholdCombine (l.map pack) =
    checked Vector.toList (.reached (Toprf.thresholdcombine G l zero32)) := by
  show checked _ (raiseIf _ <| orRaise _ _) = _
  rw [raiseIf_false (good_packs l), join_packs, orRaise_some, List.length_map, List.length_map, sharesAt_packs, C.ok_bind]

theorem shareAt_zero (s : Share) (rest : Bytes) : shareAt (pack s ++ rest) 0 = .ok s := by
  have := shareAt_pack [] rest s 0 rfl
  rwa [List.nil_append] at this

theorem real_tevaluate (s : Share) (b : B32) (i : ℤ) (hi : 1 ≤ i ∧ i ≤ 255) (ixs : List ℤ) (hix : ∀ j ∈ ixs, j > 0 ∧ j < 256)
    (hl : ixs.length ≤ 255) :
    (real G junk scratch).thresholdEvaluate (pack s) b.toList i ixs =
      checked pack (.reached (.ok (Toprf.evaluate G s b (u8 i) (ixs.map u8) zeroShare))) := by
  have e : (UInt16.ofNat ixs.length).toNat = ixs.length := by simp; omega
  show checked _ (raiseIf _ <| raiseIf _ <| raiseIf _ <| raiseIf _ <| orRaise (some _) fun k => orRaise (some _) _) = _
  rw [raiseIf_false (notBytes_list _ _ (pack_length s)), raiseIf_false (notBytes_list _ _ (by simp)),
    raiseIf_false (by omega), raiseIf_false (by rw [not_not]; exact hix), orRaise_some, orRaise_some,
    shareAt_zero, C.ok_bind, b32At_zero, C.ok_bind, e, rd_ok (by simp), C.ok_bind, List.drop_zero,
    List.take_left' (by simp)]

theorem real_hash3tdh (k z : Share) (alpha ssid : B32) :
    (real G junk scratch).hash3tdh (pack k) (pack z) alpha.toList ssid.toList =
      checked pack (.reached (Toprf.hash3tdh G true scratch scratch k z alpha (ssid.toList ++ [0]) 32 zeroShare)) := by
  have e : (UInt16.ofNat ssid.toList.length) = 32 := by simp
  show checked _ (raiseIf _ <| raiseIf _ <| raiseIf _ <| raiseIf _ <| orRaise (some _) fun len => raiseIf _ <|
    orRaise (some _) fun k => orRaise (some _) fun z => orRaise (some _) fun a => orRaise (some _) _) = _
  rw [raiseIf_false (notBytes_list _ _ (pack_length k)), raiseIf_false (notBytes_list _ _ (pack_length z)),
    raiseIf_false (notBytes_list _ _ (by simp)), raiseIf_false (by simp [Val.isBytes]), orRaise_some,
    raiseIf_false (by simp), orRaise_some, orRaise_some, orRaise_some, orRaise_some,
    shareAt_zero, C.ok_bind, shareAt_zero, C.ok_bind, b32At_zero, C.ok_bind, e]

end

end Verif.PyTests
