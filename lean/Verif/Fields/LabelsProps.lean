import Verif.Fields.Labels
import Mathlib.Data.List.Nodup
import Mathlib.Data.List.TakeWhile
import Mathlib.Tactic.IntervalCases
import Mathlib.Tactic.Linarith

/-!
# Field labels: properties C33 and C34
-/

namespace NimbleSM.Fields

open NimbleSM.Parse (isDigit digitsVal digitVal)

/-! ## Decimal numbers -/

theorem isDigit_digitChar {d : ℕ} (h : d < 10) : isDigit (digitChar d) = true := by
  interval_cases d <;> decide

theorem digitVal_digitChar {d : ℕ} (h : d < 10) : digitVal (digitChar d) = d := by
  interval_cases d <;> decide

theorem decimal_digits (n : ℕ) : ∀ c ∈ decimal n, isDigit c = true := by
  induction n using Nat.strong_induction_on with
  | _ n ih =>
    rw [decimal]
    split
    · intro c hc
      rw [List.mem_singleton] at hc
      subst hc
      exact isDigit_digitChar (by assumption)
    · intro c hc
      rw [List.mem_append, List.mem_singleton] at hc
      rcases hc with hc | rfl
      · exact ih _ (by omega) c hc
      · exact isDigit_digitChar (Nat.mod_lt _ (by norm_num))

theorem digitsVal_decimal (n : ℕ) : digitsVal (decimal n) = n := by
  induction n using Nat.strong_induction_on with
  | _ n ih =>
    rw [decimal]
    split
    · rename_i h
      simp [digitsVal, digitVal_digitChar h]
    · rw [digitsVal, List.foldl_append]
      have := ih (n / 10) (by omega)
      rw [digitsVal] at this
      rw [this]
      simp only [List.foldl_cons, List.foldl_nil, digitVal_digitChar (Nat.mod_lt n (by norm_num : 10 > 0))]
      omega

theorem decimal_ne_nil (n : ℕ) : decimal n ≠ [] := by
  rw [decimal]; split <;> simp

theorem decimal_injective : Function.Injective decimal := fun a b h => by
  rw [← digitsVal_decimal a, h, digitsVal_decimal]

/-! ## The prefix -/

/-- The digits after "ipt". -/
def iptDigits (n : ℕ) : Str := if (decimal n).length = 1 then '0' :: decimal n else decimal n

theorem addPrefix_nat (label : Str) (n : ℕ) :
    addPrefix label (n : ℤ) = "ipt".toList ++ (iptDigits n ++ '_' :: label) := by
  have hi : intText (n : ℤ) = decimal n := rfl
  simp only [addPrefix, iptDigits, hi]
  split
  · show _ = _
    simp
  · simp

theorem iptDigits_digits (n : ℕ) : ∀ c ∈ iptDigits n, isDigit c = true := by
  unfold iptDigits
  split
  · intro c hc
    rcases List.mem_cons.mp hc with rfl | hc
    · decide
    · exact decimal_digits n c hc
  · exact decimal_digits n

theorem digitsVal_iptDigits (n : ℕ) : digitsVal (iptDigits n) = n := by
  unfold iptDigits
  split
  · have : digitsVal ('0' :: decimal n) = digitsVal (decimal n) := rfl
    rw [this, digitsVal_decimal]
  · exact digitsVal_decimal n

theorem iptDigits_ne_nil (n : ℕ) : iptDigits n ≠ [] := by
  unfold iptDigits
  split
  · simp
  · exact decimal_ne_nil n

theorem takeWhile_digits (ds : Str) (h : ∀ c ∈ ds, isDigit c = true) (rest : Str) :
    (ds ++ '_' :: rest).takeWhile isDigit = ds := by
  have h0 : isDigit '_' = false := by decide
  rw [List.takeWhile_append_of_pos h, List.takeWhile_cons_of_neg (by simp [h0])]
  simp

/-- C33: removing the integration point prefix gives the label back, for every label and every
nonnegative number (in particular all below 100). -/
theorem removePrefix_addPrefix (label : Str) (n : ℕ) : removePrefix (addPrefix label n) = some label := by
  rw [addPrefix_nat]
  have e1 : ("ipt".toList ++ (iptDigits n ++ '_' :: label)).take 3 = "ipt".toList := rfl
  have e2 : ("ipt".toList ++ (iptDigits n ++ '_' :: label)).drop 3 = iptDigits n ++ '_' :: label := rfl
  simp only [removePrefix, e1, e2, if_true, takeWhile_digits _ (iptDigits_digits n)]
  rw [if_pos (by simp; omega)]
  congr 1
  rw [show 1 + (iptDigits n).length = (iptDigits n).length + 1 by omega, ← List.drop_drop,
    List.drop_left]
  rfl

/-- C33: a prefixed label is recognised as such. -/
theorem hasPrefix_addPrefix (label : Str) (n : ℕ) : hasPrefix (addPrefix label n) = some true := by
  simp only [hasPrefix, removePrefix_addPrefix]
  show some (decide (addPrefix label n ≠ label)) = some true
  congr 1
  rw [decide_eq_true_iff]
  intro h
  have := congrArg List.length h
  rw [addPrefix_nat] at this
  simp at this
  omega

/-- C33: the integration point number is recovered from a prefixed label. -/
theorem labelToIpt_addPrefix (label : Str) (n : ℕ) : labelToIpt (addPrefix label n) = some n := by
  rw [addPrefix_nat]
  have e1 : ("ipt".toList ++ (iptDigits n ++ '_' :: label)).take 3 = "ipt".toList := rfl
  have e2 : ("ipt".toList ++ (iptDigits n ++ '_' :: label)).drop 3 = iptDigits n ++ '_' :: label := rfl
  simp only [labelToIpt, e1, e2, if_true, takeWhile_digits _ (iptDigits_digits n),
    if_neg (iptDigits_ne_nil n), digitsVal_iptDigits]

/-- C33: different (number, label) pairs have different prefixed labels. -/
theorem addPrefix_injective {l₁ l₂ : Str} {n₁ n₂ : ℕ} (h : addPrefix l₁ n₁ = addPrefix l₂ n₂) :
    n₁ = n₂ ∧ l₁ = l₂ := by
  constructor
  · have := labelToIpt_addPrefix l₁ n₁
    rw [h, labelToIpt_addPrefix] at this
    exact (Option.some.inj this).symm
  · have := removePrefix_addPrefix l₁ n₁
    rw [h, removePrefix_addPrefix] at this
    exact (Option.some.inj this).symm

example : addPrefix "stress".toList 8 = "ipt08_stress".toList := by decide +kernel
example : addPrefix "stress".toList 27 = "ipt27_stress".toList := by decide +kernel
example : removePrefix "ipt08_9lives".toList = some "9lives".toList := by decide +kernel

/-- Not part of C33, but in its neighbourhood: a label that merely begins with "ipt" is taken for a
prefixed one and loses its head, and the label "ipt" throws. -/
theorem removePrefix_false_positive :
    removePrefix "iptables".toList = some "bles".toList ∧ removePrefix "ipt".toList = none := by
  decide +kernel

/-- A negative number does not survive. -/
theorem removePrefix_negative : removePrefix (addPrefix "x".toList (-1)) = some "1_x".toList := by
  decide +kernel

/-! ## Component labels -/

/-- The lengths that denote data at all. -/
def Defined (l : Length) : Prop := l ≠ .undefined

instance (l : Length) : Decidable (Defined l) := by unfold Defined; infer_instance

theorem suffixes_length (l : Length) (hl : Defined l) {dim : ℕ} (hd : dim = 2 ∨ dim = 3) :
    lengthToInt l dim = some (suffixes l dim).length := by
  rcases hd with rfl | rfl <;> cases l <;> simp [lengthToInt, suffixes, Length.toInt, Defined] at *

/-- C34: there are as many labels as components, in two and three dimensions. -/
theorem componentLabels_length (label : Str) (l : Length) (hl : Defined l) {dim : ℕ}
    (hd : dim = 2 ∨ dim = 3) :
    lengthToInt l dim = some (componentLabels label l dim).length := by
  rw [suffixes_length l hl hd, componentLabels, List.length_map]

theorem suffixes_nodup (l : Length) {dim : ℕ} (hd : dim = 2 ∨ dim = 3)
    (h2 : ¬ (l = .fullTensor ∧ dim = 2)) : (suffixes l dim).Nodup := by
  have hr : ∀ n, ((List.range n).map fun i => '_' :: decimal (i + 1)).Nodup := fun n => by
    refine (List.nodup_range).map fun a b h => ?_
    have := decimal_injective (List.cons.inj h).2
    omega
  rcases hd with rfl | rfl
  · cases l with
    | fullTensor => exact absurd ⟨rfl, rfl⟩ h2
    | len n => exact hr _
    | undefined => exact hr _
    | _ => decide
  · cases l with
    | len n => exact hr _
    | undefined => exact hr _
    | _ => decide

/-- C34, the part that holds: the component labels of a field are pairwise distinct, except for two
dimensional full tensors.  Missing: that exception, see `componentLabels_full2_duplicate`. -/
theorem componentLabels_nodup_partial (label : Str) (l : Length) {dim : ℕ} (hd : dim = 2 ∨ dim = 3)
    (h2 : ¬ (l = .fullTensor ∧ dim = 2)) : (componentLabels label l dim).Nodup :=
  (suffixes_nodup l hd h2).map (List.append_right_injective label)

/-- C34 is false for two-dimensional full tensors: the third and fourth labels coincide. -/
theorem componentLabels_full2_duplicate (label : Str) :
    (componentLabels label .fullTensor 2)[2]? = (componentLabels label .fullTensor 2)[3]? ∧
      (componentLabels label .fullTensor 2)[3]? = some (label ++ "_xy".toList) := ⟨rfl, rfl⟩

theorem addPrefix_append (label s : Str) (ipt : ℤ) : addPrefix (label ++ s) ipt = addPrefix label ipt ++ s := by
  unfold addPrefix
  split <;> simp [List.append_assoc]

/-- C34, the part that holds: for scalars, vectors, symmetric tensors and (three-dimensional) full
tensors the label `GetComponentLabel` builds for component `i` at an integration point is the `i`-th
label `GetComponentLabels` lists for the prefixed field name.  Missing: two-dimensional full tensors
and fields of generic length, see the two theorems below. -/
theorem componentLabel_eq_partial (label : Str) (l : Length) {dim : ℕ} (hd : dim = 2 ∨ dim = 3)
    (hl : l = .scalar ∨ l = .vector ∨ l = .symmetricTensor ∨ (l = .fullTensor ∧ dim = 3)) (ipt : ℤ)
    (i : ℕ) (hi : i < (componentLabels (addPrefix label ipt) l dim).length) :
    componentLabel label l dim i ipt = some ((componentLabels (addPrefix label ipt) l dim)[i]) := by
  have key : ∀ s, suffix l dim i = some s → (suffixes l dim)[i]? = some s →
      componentLabel label l dim i ipt = some ((componentLabels (addPrefix label ipt) l dim)[i]) := by
    intro s h1 h2
    have h3 : (componentLabels (addPrefix label ipt) l dim)[i]? = some (addPrefix label ipt ++ s) := by
      rw [componentLabels, List.getElem?_map, h2]; rfl
    rw [List.getElem?_eq_getElem hi] at h3
    rw [h3, componentLabel, h1]
    show some (addPrefix (label ++ s) ipt) = _
    rw [addPrefix_append]
  rw [componentLabels, List.length_map] at hi
  rcases hd with rfl | rfl
  · rcases hl with rfl | rfl | rfl | ⟨rfl, h⟩
    · have : i < 1 := hi
      interval_cases i; exact key _ rfl rfl
    · have : i < 2 := hi
      interval_cases i <;> exact key _ rfl rfl
    · have : i < 3 := hi
      interval_cases i <;> exact key _ rfl rfl
    · cases h
  · rcases hl with rfl | rfl | rfl | ⟨rfl, -⟩
    · have : i < 1 := hi
      interval_cases i; exact key _ rfl rfl
    · have : i < 3 := hi
      interval_cases i <;> exact key _ rfl rfl
    · have : i < 6 := hi
      interval_cases i <;> exact key _ rfl rfl
    · have : i < 9 := hi
      interval_cases i <;> exact key _ rfl rfl

/-- C34 is false for two-dimensional full tensors: the two functions disagree on component 3. -/
theorem componentLabel_full2_mismatch :
    componentLabel "F".toList .fullTensor 2 3 1 = some "ipt01_F_yx".toList ∧
      (componentLabels (addPrefix "F".toList 1) .fullTensor 2)[3]? = some "ipt01_F_xy".toList := by
  decide +kernel

/-- C34 is false for fields of generic length: `GetComponentLabel` ignores the component. -/
theorem componentLabel_generic_mismatch :
    componentLabel "h".toList (.len 4) 3 2 1 = some "ipt01_h".toList ∧
      (componentLabels (addPrefix "h".toList 1) (.len 4) 3)[2]? = some "ipt01_h_3".toList := by
  decide +kernel

example : componentLabels "u".toList .vector 3 = ["u_x".toList, "u_y".toList, "u_z".toList] := rfl
example : Defined .vector ∧ ¬ (Length.vector = .fullTensor ∧ 3 = 2) := by decide

end NimbleSM.Fields
