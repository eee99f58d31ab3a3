import Verif.Spec.FixedExamples
import Verif.Lemmas.Scan
import Mathlib.Data.Nat.Digits.Lemmas

/-! # Numbers written and read again -/

namespace Ctldl

theorem spells_append {alphabet : List (List Char)} {s t : List Char} {ds es : List Nat} (h : Spells alphabet s ds)
    (h' : Spells alphabet t es) : Spells alphabet (s ++ t) (ds ++ es) :=
  List.rel_append h h'

theorem hasValue_digitChar {d : Nat} (h : d < 10) : HasValue decimalAlphabet d.digitChar d := by
  refine ⟨_, List.mem_singleton.mpr rfl, ?_⟩
  interval_cases d <;> rfl

/-- The digits of a number spell it. -/
theorem spells_toDigits (n : Nat) : ∃ ds, Spells decimalAlphabet (Nat.toDigits 10 n) ds ∧ (∀ d ∈ ds, d < 10) ∧
    Nat.ofDigits 10 ds.reverse = n := by
  induction n using Nat.strong_induction_on with
  | _ n ih =>
    rw [Nat.toDigits_eq_if (by decide)]
    split
    · next h => exact ⟨[n], .cons (hasValue_digitChar h) .nil, by simpa using h, by simp⟩
    · next h =>
      obtain ⟨ds, h1, h2, h3⟩ := ih (n / 10) (by omega)
      refine ⟨ds ++ [n % 10], spells_append h1 (.cons (hasValue_digitChar (Nat.mod_lt _ (by decide))) .nil), ?_, ?_⟩
      · intro d hd
        rcases List.mem_append.mp hd with hd | hd
        · exact h2 d hd
        · rw [List.mem_singleton.mp hd]
          exact Nat.mod_lt _ (by decide)
      · rw [List.reverse_append, List.reverse_singleton, List.singleton_append, Nat.ofDigits_cons, h3]
        omega

/-- The last six digits. -/
theorem spells_fraction {r : Nat} (hr : r < 10 ^ 6) : ∃ fs, Spells decimalAlphabet (Nat.toDigits 10 (10 ^ 6 + r)).tail fs ∧
    fs.length = 6 ∧ Nat.ofDigits 10 fs.reverse = r := by
  obtain ⟨ds, h1, h2, h3⟩ := spells_toDigits (10 ^ 6 + r)
  have hl : (Nat.toDigits 10 (10 ^ 6 + r)).length = 7 := by
    have a := (Nat.length_toDigits_le_iff (n := 10 ^ 6 + r) (k := 7) (b := 10) (by decide) (by decide)).mpr (by omega)
    have b := mt (Nat.length_toDigits_le_iff (n := 10 ^ 6 + r) (k := 6) (b := 10) (by decide) (by decide)).mp (by omega)
    omega
  generalize Nat.toDigits 10 (10 ^ 6 + r) = text at h1 hl ⊢
  revert hl
  cases h1 with
  | nil => intro hl; cases hl
  | @cons c d s fs hc hs =>
    intro hl
    have h4 : fs.length = 6 := by
      rw [← hs.length_eq]
      simpa using hl
    refine ⟨fs, hs, h4, ?_⟩
    have h5 : Nat.ofDigits 10 fs.reverse < 10 ^ 6 := by
      have := Nat.ofDigits_lt_base_pow_length (b := 10) (l := fs.reverse) (by decide)
        fun x hx => h2 x (by simp [List.mem_reverse.mp hx])
      rwa [List.length_reverse, h4] at this
    rw [List.reverse_cons, Nat.ofDigits_append, List.length_reverse, h4, Nat.ofDigits_singleton] at h3
    have : d < 10 := h2 d (by simp)
    omega

theorem spells_millionths (n : Nat) : SpellsPositional decimalAlphabet 10 1 ['e', 'E'] (millionths n) n (-6) := by
  obtain ⟨ds, h1, -, h2⟩ := spells_toDigits (n / 10 ^ 6)
  obtain ⟨fs, h3, h4, h5⟩ := spells_fraction (Nat.mod_lt n (by decide : 10 ^ 6 > 0))
  refine ⟨_, _, ['.'], [], ds, fs, 0, ?_, h1, h3, Or.inl rfl, Or.inr fun h => ?_, Or.inl ⟨rfl, rfl⟩, ?_, by rw [h4]; rfl⟩
  · simp [millionths]
  · rw [h] at h4; cases h4
  · rw [List.reverse_append, Nat.ofDigits_append, List.length_reverse, h4, h2, h5]
    omega

end Ctldl
