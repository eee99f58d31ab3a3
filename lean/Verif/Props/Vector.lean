import Verif.Model.Vector
import Verif.Lemmas.Basic

/-! # C39: blocked and flat vectors -/

namespace Ctldl

variable {α : Type}

private theorem readBlock_sat (v : List α) (count it : Nat) (h : it + count ≤ v.length) :
    readBlock v count it = .ok ((v.drop it).take count, it + count) := by
  unfold readBlock
  obtain ⟨r, h1, h2⟩ := foldlM_range_inv (n := count) (init := (([], it) : List α × Nat))
    (f := fun (st : List α × Nat) _ => do return (st.1 ++ [← rd v st.2], st.2 + 1))
    (fun k (st : List α × Nat) => st = ((v.drop it).take k, it + k)) (by simp) (by
      rintro k st hk rfl
      simp only
      have hlt : it + k < v.length := by omega
      rw [show rd v (it + k) = .ok v[it + k] by simp [rd, hlt], ok_bind]
      refine Sat.pure ?_
      rw [List.take_succ, List.getElem?_drop, List.getElem?_eq_getElem hlt]
      rfl)
  rw [h1, h2]

/-- C39: `block` delivers as many whole blocks as there are, in order, each of the given size; values which do not fill a
block are dropped. -/
theorem C39_block (n : Nat) (hn : 0 < n) (v : List α) :
    ∃ bs, block n v = .ok bs ∧ bs.length = v.length / n ∧ (∀ b ∈ bs, b.length = n) ∧
      bs.flatten = v.take (v.length / n * n) ∧
      ∀ k i, k < v.length / n → i < n → (bs[k]?.bind fun b => b[i]?) = v[k * n + i]? := by
  unfold block udiv
  rw [if_neg (by omega), ok_bind]
  have hle := Nat.div_mul_le_self v.length n
  obtain ⟨⟨bs, it⟩, h1, h2, h3, h4, h5, h6⟩ := foldlM_range_inv (n := v.length / n)
    (init := (([], 0) : List (List α) × Nat))
    (f := fun (st : List (List α) × Nat) _ => do
      let (values, it) ← readBlock v n st.2
      return (st.1 ++ [values], it))
    (fun k (st : List (List α) × Nat) => st.2 = k * n ∧ st.1.length = k ∧ (∀ b ∈ st.1, b.length = n) ∧
      st.1.flatten = v.take (k * n) ∧ ∀ l i, l < k → i < n → (st.1[l]?.bind fun b => b[i]?) = v[l * n + i]?)
    ⟨by simp, rfl, by simp, by simp, by omega⟩ (by
      rintro k ⟨bs, it⟩ hk ⟨rfl, h2, h3, h4, h5⟩
      simp only at h2 h3 h4 h5 ⊢
      have hb : k * n + n ≤ v.length := by
        have : (k + 1) * n ≤ v.length / n * n := Nat.mul_le_mul_right n hk
        rw [Nat.add_mul] at this
        omega
      rw [readBlock_sat v n (k * n) hb, ok_bind]
      refine Sat.pure ⟨by simp [Nat.add_mul], by simp [h2], ?_, ?_, ?_⟩
      · intro b hb'
        rcases List.mem_append.mp hb' with hb' | hb'
        · exact h3 b hb'
        · rw [List.mem_singleton] at hb'
          rw [hb', List.length_take, List.length_drop]
          omega
      · simp only [List.flatten_append, h4, List.flatten_cons, List.flatten_nil, List.append_nil]
        rw [Nat.add_mul, Nat.one_mul, List.take_add]
      · intro l i hl hi
        simp only
        rcases Nat.lt_or_eq_of_le (Nat.le_of_lt_succ hl) with hlt | rfl
        · rw [List.getElem?_append_left (by omega)]
          exact h5 l i hlt hi
        · rw [List.getElem?_append_right (by omega), h2, Nat.sub_self]
          simp [List.getElem?_take, hi])
  rw [h1, ok_bind]
  exact ⟨bs, rfl, h3, h4, h5, h6⟩

/-- C39: `flatten` concatenates. -/
theorem C39_flatten (bs : List (List α)) : flatten bs = bs.flatten := by
  unfold flatten
  have : ∀ (acc : List α), bs.foldl (fun acc block => acc ++ block) acc = acc ++ bs.flatten := by
    induction bs with
    | nil => simp
    | cons b bs ih =>
      intro acc
      simp only [List.foldl_cons, List.flatten_cons]
      rw [ih, List.append_assoc]
  simpa using this []

/-- C39: flattening the blocks of a vector of a whole number of blocks returns the vector. -/
theorem C39_flatten_block (n : Nat) (hn : 0 < n) (v : List α) (h : n ∣ v.length) :
    ∃ bs, block n v = .ok bs ∧ flatten bs = v := by
  obtain ⟨bs, h1, -, -, h2, -⟩ := C39_block n hn v
  refine ⟨bs, h1, ?_⟩
  rw [C39_flatten, h2, Nat.div_mul_cancel h, List.take_length]

private theorem flatten_inj {n : Nat} : ∀ {as bs : List (List α)}, (∀ b ∈ as, b.length = n) → (∀ b ∈ bs, b.length = n) →
    as.length = bs.length → as.flatten = bs.flatten → as = bs := by
  intro as
  induction as with
  | nil =>
    intro bs _ _ h _
    exact (List.length_eq_zero_iff.mp h.symm).symm
  | cons a as ih =>
    intro bs ha hb hl hf
    cases bs with
    | nil => cases hl
    | cons b bs =>
      simp only [List.flatten_cons] at hf
      obtain ⟨rfl, h2⟩ := List.append_inj hf (by rw [ha a (by simp), hb b (by simp)])
      rw [ih (fun b h => ha b (by simp [h])) (fun b h => hb b (by simp [h])) (by simpa using hl) h2]

private theorem length_flatten_of {n : Nat} {bs : List (List α)} (h : ∀ b ∈ bs, b.length = n) :
    bs.flatten.length = bs.length * n := by
  induction bs with
  | nil => simp
  | cons b bs ih =>
    rw [List.flatten_cons, List.length_append, h b (by simp), ih fun b hb => h b (by simp [hb]), List.length_cons,
      Nat.add_mul]
    omega

/-- C39: blocking the concatenation of blocks of the same size returns the blocks. -/
theorem C39_block_flatten (n : Nat) (hn : 0 < n) (bs : List (List α)) (h : ∀ b ∈ bs, b.length = n) :
    block n (flatten bs) = .ok bs := by
  rw [C39_flatten]
  have hl := length_flatten_of h
  obtain ⟨cs, h1, h2, h3, h4, -⟩ := C39_block n hn bs.flatten
  rw [h1]
  refine congrArg _ (flatten_inj h3 h ?_ ?_)
  · rw [h2, hl, Nat.mul_div_cancel _ hn]
  · rw [h4, hl, Nat.mul_div_cancel _ hn, ← hl, List.take_length]

/-- C39: a block size of zero is a division by zero. -/
theorem C39_block_zero (v : List α) : block 0 v = .error .ub := rfl

example : block 2 [1, 2, 3, 4, 5] = .ok [[1, 2], [3, 4]] ∧ flatten [[1, 2], [3, 4]] = [1, 2, 3, 4] :=
  ⟨by decide, by decide⟩

end Ctldl
