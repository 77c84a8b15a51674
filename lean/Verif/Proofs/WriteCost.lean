import Verif.Model.WriteCost
import Verif.Proofs.Weight
import Verif.Proofs.Writer
set_option linter.unusedVariables false
/-! Bounds for the work of encoding. -/

namespace QP.Gen
open QP.Pbrs Spec

theorem sum_map_le {α : Type} {f g : α → Nat} (h : ∀ a, f a ≤ g a) : ∀ l : List α, (l.map f).sum ≤ (l.map g).sum
  | [] => Nat.le_refl _
  | a :: l => by
    have := h a
    have := sum_map_le h l
    simp only [List.map_cons, List.sum_cons]
    omega

theorem sum_weights (c : Nat) : ∀ l : List RVal, (l.map (fun v => c * v.weight)).sum = c * weights l
  | [] => by simp [weights]
  | v :: l => by simp only [List.map_cons, List.sum_cons, weights, sum_weights c l, Nat.mul_add]

theorem sum_pairWeights (c : Nat) : ∀ l : List (RVal × RVal), (l.map (fun kv => c * (kv.1.weight + kv.2.weight))).sum = c * pairWeights l
  | [] => by simp [pairWeights]
  | (k, v) :: l => by
    rw [List.map_cons, List.sum_cons, sum_pairWeights c l]
    simp only [pairWeights, Nat.mul_add]

theorem zipWith_sum_le {α : Type} {f : α → RVal → Nat} {c : Nat} (h : ∀ a v, f a v ≤ c * v.weight) : ∀ (ms : List α) (l : List RVal),
    (List.zipWith f ms l).sum ≤ c * weights l
  | [], l => by simp
  | _ :: _, [] => by simp
  | a :: ms, v :: l => by
    have := h a v
    have := zipWith_sum_le h ms l
    simp only [List.zipWith_cons_cons, List.sum_cons, weights, Nat.mul_add]
    omega

theorem weights_slots (v : RVal) : weights v.slots + 1 ≤ v.weight := by
  have := weight_pos v
  cases v <;> simp only [RVal.slots, RVal.weight, weights] at this ⊢ <;> omega

section
variable {sc wc : MessageIndex → RVal → Nat} {n : Nat}

theorem sizeTypCost_le (hs : ∀ m v, sc m v + 2 ≤ 2 * v.weight) (t : FieldType) (v : RVal) : sizeTypCost sc t v + 1 ≤ 2 * v.weight := by
  have := weight_pos v
  unfold sizeTypCost
  split
  · rename_i m
    have := hs m v
    omega
  · omega

theorem compare_le (hs : ∀ m v, sc m v + 2 ≤ 2 * v.weight) (t : FieldType) (v : RVal) : compareCost t v + sizeTypCost sc t v ≤ 2 * v.weight := by
  have hw := weight_pos v
  unfold compareCost sizeTypCost
  cases t
  case message m =>
    have := hs m v
    simp only
    omega
  all_goals
    simp only
    cases v <;> simp only [RVal.weight] at hw ⊢ <;> omega

theorem sizeFieldCost_le (hs : ∀ m v, sc m v + 2 ≤ 2 * v.weight) (f : Field) (v : RVal) : sizeFieldCost sc f v ≤ 2 * v.weight := by
  have ht := sizeTypCost_le hs
  have hw := weight_pos v
  unfold sizeFieldCost
  split
  · split
    · split
      · rename_i x
        have := ht f.typ x
        simp only [RVal.weight]
        omega
      · omega
    · have := ht f.typ v; omega
    · exact compare_le hs f.typ v
    · omega
  · split
    · split
      · rename_i l
        have h1 := sum_map_le (fun x => Nat.le_of_succ_le (ht f.typ x)) l
        rw [sum_weights] at h1
        simp only [RVal.weight]
        omega
      · omega
    · split
      · rename_i l
        have h1 := sum_map_le (f := fun x => 1 + sizeTypCost sc f.typ x) (g := fun x => 2 * x.weight) (fun x => by have := ht f.typ x; omega) l
        rw [sum_weights] at h1
        simp only [RVal.weight]
        split
        · omega
        · split <;> omega
      · omega
  · split
    · rename_i k t l _
      have h1 := sum_map_le (f := fun kv : RVal × RVal => sizeTypCost sc k kv.1 + sizeTypCost sc t kv.2) (g := fun kv => 2 * (kv.1.weight + kv.2.weight))
        (fun kv => by have := ht k kv.1; have := ht t kv.2; omega) l
      rw [sum_pairWeights] at h1
      simp only [RVal.weight]
      omega
    · omega

theorem sizeMemberCost_le (hs : ∀ m v, sc m v + 2 ≤ 2 * v.weight) (mem : Member) (v : RVal) : sizeMemberCost sc mem v ≤ 2 * v.weight := by
  have ht := sizeTypCost_le hs
  have hw := weight_pos v
  unfold sizeMemberCost
  split
  · exact sizeFieldCost_le hs _ v
  · split
    · rename_i i x
      split
      · rename_i f _
        have := ht f.typ x
        simp only [RVal.weight]
        omega
      · omega
    · omega

theorem sizeCost_le (C : Ctx) : ∀ (n : Nat) (idx : MessageIndex) (v : RVal), sizeCost C n idx v + 2 ≤ 2 * v.weight
  | 0, _, v => by have := weight_pos v; simp only [sizeCost]; omega
  | n + 1, idx, v => by
    have hw := weight_pos v
    have hl := weights_slots v
    unfold sizeCost
    split
    · omega
    · rename_i m _
      have := zipWith_sum_le (sizeMemberCost_le (sizeCost_le C n)) (members C.cfg m) v.slots
      omega

theorem writeTypCost_le (hs : ∀ m v, sc m v + 2 ≤ 2 * v.weight) (hw : ∀ m v, wc m v ≤ 4 * n * v.weight) (t : FieldType) (v : RVal) :
    writeTypCost sc wc t v + 1 ≤ (4 * n + 2) * v.weight := by
  have h0 := weight_pos v
  rw [Nat.add_mul]
  unfold writeTypCost
  cases t
  case message m =>
    have := hs m v
    have := hw m v
    simp only
    omega
  all_goals
    generalize 4 * n * v.weight = z
    simp only
    cases v <;> simp only [RVal.weight] at h0 ⊢ <;> omega

theorem compare_write_le (hs : ∀ m v, sc m v + 2 ≤ 2 * v.weight) (hw : ∀ m v, wc m v ≤ 4 * n * v.weight) (t : FieldType) (v : RVal) :
    compareCost t v + writeTypCost sc wc t v ≤ (4 * n + 4) * v.weight := by
  have h0 := weight_pos v
  rw [Nat.add_mul]
  unfold compareCost writeTypCost
  cases t
  case message m =>
    have := hs m v
    have := hw m v
    simp only
    omega
  all_goals
    generalize 4 * n * v.weight = z
    simp only
    cases v <;> simp only [RVal.weight] at h0 ⊢ <;> omega

theorem packedBytes_le {α : Type} (k : Nat) (p : PackedFixed α) {w : Nat} (h : w = 1 + packedBytes k p) (c : Nat) : 2 + packedBytes k p ≤ (c + 4) * w := by
  subst h
  rw [Nat.add_mul]
  omega

theorem writeFieldCost_le (hs : ∀ m v, sc m v + 2 ≤ 2 * v.weight) (hw : ∀ m v, wc m v ≤ 4 * n * v.weight) (f : Field) (v : RVal) :
    writeFieldCost sc wc f v ≤ (4 * n + 4) * v.weight := by
  have ht := sizeTypCost_le hs
  have hwt := writeTypCost_le hs hw
  have h0 := weight_pos v
  have h1 : 4 ≤ (4 * n + 4) * v.weight := Nat.le_trans (by omega : 4 ≤ (4 * n + 4) * 1) (Nat.mul_le_mul_left _ h0)
  have up : ∀ x : RVal, writeTypCost sc wc f.typ x + 1 ≤ (4 * n + 4) * x.weight := fun x =>
    Nat.le_trans (hwt f.typ x) (Nat.mul_le_mul_right _ (by omega))
  unfold writeFieldCost
  split
  · split
    · split
      · rename_i x
        have := up x
        simp only [RVal.weight, Nat.mul_add]
        omega
      · omega
    · have := up v; omega
    · exact compare_write_le hs hw f.typ v
    · omega
  · split
    · split
      · exact packedBytes_le 8 _ rfl _
      · exact packedBytes_le 4 _ rfl _
      · rename_i l
        have h1 := sum_map_le (f := fun x => sizeTypCost sc f.typ x + writeTypCost sc wc f.typ x) (g := fun x => (4 * n + 4) * x.weight) (fun x => by
          have := ht f.typ x
          have := hwt f.typ x
          rw [show 4 * n + 4 = 4 * n + 2 + 2 by omega, Nat.add_mul (4 * n + 2)]
          omega) l
        rw [sum_weights] at h1
        simp only [RVal.weight, Nat.mul_add]
        omega
      · omega
    · split
      · rename_i l
        have h1 := sum_map_le (f := fun x => 1 + writeTypCost sc wc f.typ x) (g := fun x => (4 * n + 4) * x.weight) (fun x => by have := up x; omega) l
        rw [sum_weights] at h1
        simp only [RVal.weight, Nat.mul_add]
        omega
      · omega
  · split
    · rename_i k t l _
      have h1 := sum_map_le (f := fun kv : RVal × RVal => 3 + (sizeTypCost sc k kv.1 + sizeTypCost sc t kv.2) +
          (writeTypCost sc wc k kv.1 + writeTypCost sc wc t kv.2)) (g := fun kv => (4 * n + 4) * (kv.1.weight + kv.2.weight))
        (fun kv => by
          have := ht k kv.1; have := ht t kv.2
          have := hwt k kv.1; have := hwt t kv.2
          rw [show 4 * n + 4 = 4 * n + 2 + 2 by omega, Nat.add_mul (4 * n + 2), Nat.mul_add (4 * n + 2)]
          omega) l
      rw [sum_pairWeights] at h1
      simp only [RVal.weight, Nat.mul_add]
      omega
    · omega

theorem writeMemberCost_le (hs : ∀ m v, sc m v + 2 ≤ 2 * v.weight) (hw : ∀ m v, wc m v ≤ 4 * n * v.weight) (mem : Member) (v : RVal) :
    writeMemberCost sc wc mem v ≤ (4 * n + 4) * v.weight := by
  have hwt := writeTypCost_le hs hw
  have h0 := weight_pos v
  have h1 : 4 ≤ (4 * n + 4) * v.weight := Nat.le_trans (by omega : 4 ≤ (4 * n + 4) * 1) (Nat.mul_le_mul_left _ h0)
  unfold writeMemberCost
  split
  · exact writeFieldCost_le hs hw _ v
  · split
    · rename_i i x
      split
      · rename_i f _
        have : writeTypCost sc wc f.typ x + 1 ≤ (4 * n + 4) * x.weight := Nat.le_trans (hwt f.typ x) (Nat.mul_le_mul_right _ (by omega))
        simp only [RVal.weight, Nat.mul_add]
        omega
      · omega
    · omega

end

theorem writeCost_le (C : Ctx) : ∀ (n : Nat) (idx : MessageIndex) (v : RVal), writeCost C n idx v ≤ 4 * n * v.weight
  | 0, _, v => by simp [writeCost]
  | n + 1, idx, v => by
    have hl := weights_slots v
    unfold writeCost
    split
    · omega
    · rename_i m _
      have := zipWith_sum_le (writeMemberCost_le (sizeCost_le C n) (writeCost_le C n)) (members C.cfg m) v.slots
      have h2 : weights v.slots ≤ v.weight := by omega
      have h3 := Nat.mul_le_mul_left (4 * n + 4) h2
      rw [show 4 * (n + 1) = 4 * n + 4 by omega]
      omega

/-! ### Every byte is counted -/

theorem sizeof_varint_le (v : BitVec 64) : sizeof_varint v ≤ 10 := by
  unfold sizeof_varint
  repeat' split
  all_goals omega

theorem sizeofVarint_le (v : BitVec 32) : sizeofVarint v ≤ 10 := by
  unfold sizeofVarint
  repeat' split
  all_goals omega

theorem sizeof_len_le (n : Nat) : sizeof_len n ≤ 10 + n := by
  have := sizeof_varint_le (BitVec.ofNat 64 n)
  unfold sizeof_len
  omega

theorem sum_map_scale {α : Type} {f g : α → Nat} {c : Nat} (h : ∀ a, f a ≤ c * g a) : ∀ l : List α, (l.map f).sum ≤ c * (l.map g).sum
  | [] => Nat.zero_le _
  | a :: l => by
    have := h a
    have := sum_map_scale h l
    simp only [List.map_cons, List.sum_cons, Nat.mul_add]
    omega

theorem zipWith_sum_scale {α : Type} {f g : α → RVal → Nat} {c : Nat} (h : ∀ a v, f a v ≤ c * g a v) : ∀ (ms : List α) (l : List RVal),
    (List.zipWith f ms l).sum ≤ c * (List.zipWith g ms l).sum
  | [], l => by simp
  | _ :: _, [] => by simp
  | a :: ms, v :: l => by
    have := h a v
    have := zipWith_sum_scale h ms l
    simp only [List.zipWith_cons_cons, List.sum_cons, Nat.mul_add]
    omega

section
variable {C : Ctx} {wr : MessageIndex → MessageWrite RVal} {sc wc : MessageIndex → RVal → Nat}

theorem sizeTyp_counted (h : ∀ m v, (wr m).get_size v ≤ 10 * wc m v) (t : FieldType) (v : RVal) : sizeTyp wr t v ≤ 10 * writeTypCost sc wc t v := by
  have hl : ∀ b : Bytes, sizeof_len b.length ≤ 10 * (1 + b.length) := fun b => by have := sizeof_len_le b.length; omega
  have hp : 1 ≤ writeTypCost sc wc t v := by
    unfold writeTypCost
    split
    · omega
    · split <;> omega
  have ten : ∀ n, n ≤ 10 → n ≤ 10 * writeTypCost sc wc t v := fun n hn => by omega
  unfold sizeTyp
  split
  case h_19 =>
    rename_i m
    have := sizeof_len_le ((wr m).get_size v)
    have := h m v
    simp only [writeTypCost]
    omega
  all_goals first
    | exact ten _ (sizeof_varint_le _)
    | exact hl _
    | exact ten _ (by omega)

theorem pfLen_le (T : Target) (k : Nat) (p : PackedFixed (BitVec (8 * k))) : pfLen (MemTy.int T k) p * k ≤ packedBytes k p := by
  unfold pfLen
  cases p with
  | noDataYet => simp [PackedFixed.len, packedBytes]
  | owned l => simp [PackedFixed.len, packedBytes, Nat.mul_comm]
  | borrowed b =>
    simp only [PackedFixed.len, packedBytes, show (MemTy.int T k).size = k from rfl]
    by_cases hk : k = 0
    · rw [if_pos hk]; simp
    · rw [if_neg hk]; exact Nat.div_mul_le_self _ _

theorem sizeField_counted (h : ∀ m v, (wr m).get_size v ≤ 10 * wc m v) (f : Field) (v : RVal) : sizeField C wr f v ≤ 10 * writeFieldCost sc wc f v := by
  have ht := sizeTyp_counted (sc := sc) h
  have htag := sizeofVarint_le f.tag
  unfold sizeField writeFieldCost
  cases f.frequency.generated
  · simp only
    cases f.hasPresence <;> cases f.frequency.isOptional <;> simp only
    · have h1 : 1 ≤ compareCost f.typ v := by
        unfold compareCost
        split
        · omega
        · split <;> omega
      have := ht f.typ v
      split <;> omega
    · exact Nat.zero_le _
    · have := ht f.typ v
      omega
    · cases v
      case some x =>
        have := ht f.typ x
        simp only
        omega
      all_goals exact Nat.zero_le _
  · simp only
    split
    · cases v
      case pf64 p =>
        have := sizeof_len_le (pfLen (MemTy.int C.T 8) p * 8)
        have := pfLen_le C.T 8 p
        simp only
        split <;> omega
      case pf32 p =>
        have := sizeof_len_le (pfLen (MemTy.int C.T 4) p * 4)
        have := pfLen_le C.T 4 p
        simp only
        split <;> omega
      case vec l =>
        have := sizeof_len_le (l.map (sizeTyp wr f.typ)).sum
        have := sum_map_scale (f := sizeTyp wr f.typ) (g := fun x => sizeTypCost sc f.typ x + writeTypCost sc wc f.typ x) (c := 10)
          (fun x => by have := ht f.typ x; omega) l
        simp only
        split <;> omega
      all_goals exact Nat.zero_le _
    · cases v
      case vec l =>
        have h1 := sum_map_scale (f := fun x => sizeofVarint f.tag + sizeTyp wr f.typ x) (g := fun x => 1 + writeTypCost sc wc f.typ x) (c := 10)
          (fun x => by have := ht f.typ x; omega) l
        have h2 : ∀ c, c ≤ 8 → (sizeofVarint f.tag + c) * l.length ≤ 10 * (l.map (fun x => 1 + writeTypCost sc wc f.typ x)).sum := by
          intro c hc
          have h2 := sum_map_scale (f := fun _ => sizeofVarint f.tag + c) (g := fun x => 1 + writeTypCost sc wc f.typ x) (c := 10)
            (fun x => by
              have : 1 ≤ writeTypCost sc wc f.typ x := by
                unfold writeTypCost
                split
                · omega
                · split <;> omega
              omega) l
          rw [List.map_const', List.sum_replicate_nat] at h2
          rw [Nat.mul_comm]
          exact h2
        have := h2 8 (by omega)
        have := h2 4 (by omega)
        simp only
        split
        · omega
        · split <;> omega
      all_goals exact Nat.zero_le _
  · cases f.typ
    case map k t =>
      cases v
      case map l =>
        have h1 := sum_map_scale (f := fun kv : RVal × RVal => sizeofVarint f.tag + sizeof_len (sizeEntry wr k t kv))
          (g := fun kv => 3 + (sizeTypCost sc k kv.1 + sizeTypCost sc t kv.2) + (writeTypCost sc wc k kv.1 + writeTypCost sc wc t kv.2)) (c := 10)
          (fun kv => by
            have := ht k kv.1
            have := ht t kv.2
            have := sizeof_len_le (sizeEntry wr k t kv)
            unfold sizeEntry at *
            omega) l
        simp only
        omega
      all_goals exact Nat.zero_le _
    all_goals exact Nat.zero_le _

theorem sizeMember_counted (h : ∀ m v, (wr m).get_size v ≤ 10 * wc m v) (mem : Member) (v : RVal) :
    sizeMember C wr mem v ≤ 10 * writeMemberCost sc wc mem v := by
  unfold sizeMember writeMemberCost
  cases mem with
  | field f => exact sizeField_counted h f v
  | oneof fs =>
    cases v
    case choice i x =>
      simp only
      cases hf : fs[i]? with
      | none => exact Nat.zero_le _
      | some f =>
        have := sizeTyp_counted (sc := sc) h f.typ x
        have := sizeofVarint_le f.tag
        simp only
        omega
    all_goals exact Nat.zero_le _

end

theorem get_size_counted (C : Ctx) : ∀ (n : Nat) (idx : MessageIndex) (v : RVal), (writeImpl C n idx).get_size v ≤ 10 * writeCost C n idx v
  | 0, _, _ => Nat.zero_le _
  | n + 1, idx, v => by
    unfold writeImpl writeCost
    cases C.D.getMessage idx with
    | none => exact Nat.zero_le _
    | some m => exact zipWith_sum_scale (sizeMember_counted (get_size_counted C n)) (members C.cfg m) v.slots

end QP.Gen
