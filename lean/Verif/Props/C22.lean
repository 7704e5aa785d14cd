import Verif.Model.Cache

/-! # C22: user tokens -/

namespace Reveaal

theorem tokens_get : ∀ (n : Nat) (num : BitVec 32) (i : Nat), i < n →
    (tokens n num)[i]? = some (num + BitVec.ofNat 32 i).toInt := by
  intro n
  induction n with
  | zero => intro _ i hi; omega
  | succ n ih =>
    intro num i hi
    rw [tokens]
    cases i with
    | zero => simp [getUserToken]
    | succ i =>
      rw [List.getElem?_cons_succ, ih _ i (by omega)]
      simp only [getUserToken]
      congr 2
      rw [BitVec.add_assoc]
      congr 1
      apply BitVec.eq_of_toNat_eq
      simp [BitVec.toNat_add, Nat.add_comm]

/-- Two calls get the same token exactly if the number of calls from the one to the other is a multiple of
2^32. -/
theorem C22_tokens (n i j : Nat) (hi : i < n) (hj : j < n) (hij : i ≤ j) :
    (tokens n tokenStart)[i]? = (tokens n tokenStart)[j]? ↔ 2 ^ 32 ∣ j - i := by
  rw [tokens_get n _ i hi, tokens_get n _ j hj, Option.some_inj, BitVec.toInt_inj, BitVec.add_right_inj,
    ← BitVec.toNat_inj, BitVec.toNat_ofNat, BitVec.toNat_ofNat]
  omega

/-- In particular the tokens of fewer than 2^32 calls are different. -/
theorem C22_distinct (n : Nat) (hn : n ≤ 2 ^ 32) : (tokens n tokenStart).Nodup := by
  have hlen : ∀ n num, (tokens n num).length = n := by
    intro n
    induction n with
    | zero => intro _; rfl
    | succ n ih => intro num; rw [tokens, List.length_cons, ih]
  have key : ∀ i j, i < j → j < n → (tokens n tokenStart)[i]? ≠ (tokens n tokenStart)[j]? := by
    intro i j hij hj h
    rw [C22_tokens n i j (by omega) hj (by omega)] at h
    have := Nat.le_of_dvd (by omega) h
    omega
  rw [List.Nodup, List.pairwise_iff_getElem]
  intro i j hi hj hij h
  rw [hlen] at hi hj
  refine key i j hij hj ?_
  rw [List.getElem?_eq_getElem (by rw [hlen]; omega), List.getElem?_eq_getElem (by rw [hlen]; omega), h]

/-- The tokens are the numbers from 1 on, until they wrap around to negative ones. -/
example : tokens 3 tokenStart = [1, 2, 3] := by decide
example : tokens 2 (BitVec.ofNat 32 (2 ^ 31 - 1)) = [2147483647, -2147483648] := by decide

end Reveaal
