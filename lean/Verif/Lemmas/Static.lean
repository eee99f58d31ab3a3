import Verif.Lemmas.EntryWise
import Verif.Lemmas.Chordal
import Verif.Props.Sparsity

/-! # The static assertions of the factorization -/

namespace Ctldl

/-- Closure of two blocks with a left neighbour under elimination. -/
structure Closed2 (G11 G21 G22 : Nat → Nat → Prop) : Prop where
  c11 : ∀ i j k, G11 i j → G11 k j → k < i → G11 i k
  c21 : ∀ i j k, G21 i j → G11 k j → G21 i k
  c22 : ∀ i j k, G21 i j → G21 k j → k < i → G22 i k
  c22' : ∀ i j k, G22 i j → G22 k j → k < i → G22 i k

theorem fillFree_assembled2 {n1 : Nat} {G11 G21 G22 : Nat → Nat → Prop} (low11 : ∀ i j, G11 i j → j < i)
    (low22 : ∀ i j, G22 i j → j < i) (r11 : ∀ i j, G11 i j → i < n1) (r21 : ∀ i j, G21 i j → j < n1) :
    FillFree (Assembled2 n1 G11 G21 G22) ↔ Closed2 G11 G21 G22 := by
  have e11 : ∀ i j, i < n1 → (Assembled2 n1 G11 G21 G22 i j ↔ G11 i j) := by
    intro i j hi
    constructor
    · rintro (h | ⟨h, -⟩ | ⟨h, -, -⟩)
      · exact h
      · omega
      · omega
    · exact Or.inl
  have e21 : ∀ i j, j < n1 → (Assembled2 n1 G11 G21 G22 (n1 + i) j ↔ G21 i j) := by
    intro i j hj
    constructor
    · rintro (h | ⟨-, h⟩ | ⟨-, h, -⟩)
      · have := r11 _ _ h; omega
      · simpa using h
      · omega
    · intro h
      exact Or.inr (Or.inl ⟨by omega, by simpa using h⟩)
  have e22 : ∀ i j, (Assembled2 n1 G11 G21 G22 (n1 + i) (n1 + j) ↔ G22 i j) := by
    intro i j
    constructor
    · rintro (h | ⟨-, h⟩ | ⟨-, -, h⟩)
      · have := r11 _ _ h; omega
      · have := r21 _ _ h; omega
      · simpa using h
    · intro h
      exact Or.inr (Or.inr ⟨by omega, by omega, by simpa using h⟩)
  have low : ∀ i j, Assembled2 n1 G11 G21 G22 i j → j < i := by
    rintro i j (h | ⟨h1, h2⟩ | ⟨h1, h2, h3⟩)
    · exact low11 _ _ h
    · have := r21 _ _ h2; omega
    · have := low22 _ _ h3; omega
  constructor
  · intro hff
    have step : ∀ i j k, Assembled2 n1 G11 G21 G22 i j → Assembled2 n1 G11 G21 G22 k j → k < i →
        Assembled2 n1 G11 G21 G22 i k := fun i j k h1 h2 h3 =>
      hff _ _ (.step (.base h1 (low _ _ h1)) (.base h2 (low _ _ h2)) h3)
    refine ⟨?_, ?_, ?_, ?_⟩
    · intro i j k h1 h2 h3
      exact (e11 _ _ (r11 _ _ h1)).mp (step i j k (Or.inl h1) (Or.inl h2) h3)
    · intro i j k h1 h2
      have hk := r11 _ _ h2
      exact (e21 _ _ hk).mp (step (n1 + i) j k ((e21 _ _ (r21 _ _ h1)).mpr h1) (Or.inl h2) (by omega))
    · intro i j k h1 h2 h3
      exact (e22 _ _).mp (step (n1 + i) j (n1 + k) ((e21 _ _ (r21 _ _ h1)).mpr h1)
        ((e21 _ _ (r21 _ _ h2)).mpr h2) (by omega))
    · intro i j k h1 h2 h3
      exact (e22 _ _).mp (step (n1 + i) (n1 + j) (n1 + k) ((e22 _ _).mpr h1) ((e22 _ _).mpr h2) (by omega))
  · intro hc i j h
    induction h with
    | base h _ => exact h
    | @step i j k _ _ hki ih1 ih2 =>
      rcases Nat.lt_or_ge i n1 with hi | hi
      · rw [e11 _ _ hi] at ih1 ⊢
        rw [e11 _ _ (by omega)] at ih2
        exact hc.c11 _ _ _ ih1 ih2 hki
      · obtain ⟨i', rfl⟩ := Nat.exists_eq_add_of_le hi
        rcases Nat.lt_or_ge k n1 with hk | hk
        · rw [e11 _ _ hk] at ih2
          have hj := low11 _ _ ih2
          rw [e21 _ _ hk]
          rw [e21 _ _ (by omega)] at ih1
          exact hc.c21 _ _ _ ih1 ih2
        · obtain ⟨k', rfl⟩ := Nat.exists_eq_add_of_le hk
          rw [e22]
          rcases Nat.lt_or_ge j n1 with hj | hj
          · rw [e21 _ _ hj] at ih1 ih2
            exact hc.c22 _ _ _ ih1 ih2 (by omega)
          · obtain ⟨j', rfl⟩ := Nat.exists_eq_add_of_le hj
            rw [e22] at ih1 ih2
            exact hc.c22' _ _ _ ih1 ih2 (by omega)

section

variable {K : Type} [Zero K] [Sub K] [Mul K] [Div K]

/-- Further conditions on the blocks: the permutations are permutations, the sizes can be represented. -/
structure PermsOk (f21 : SubFactor K) (f22 : DiagFactor K) (n1 n2 : Nat) : Prop where
  p22 : IsPerm f22.permutation n2
  prow : IsPerm f21.permutationRow n2
  pcol : IsPerm f21.permutationCol n1
  bound : n1 + n2 ≤ noParent

/-- The pattern of the initialization has the dimensions of the block. -/
def InitDims (init : Init K) (r c : Nat) : Prop :=
  init.sparsity.InRange ∧ init.sparsity.numRows = r ∧ init.sparsity.numCols = c

/-- The declared patterns contain the (permuted) patterns of the initializations. -/
def InitSubset (init21 init22 : Init K) (f21 : SubFactor K) (f22 : DiagFactor K) : Prop :=
  (∀ i j, LowerPermuted init22.sparsity f22.permutation i j → f22.sparsity.Has i j) ∧
  (∀ i j, RectPermuted init21.sparsity f21.permutationRow f21.permutationCol i j → f21.sparsity.Has i j)

theorem staticAsserts_eq {f11 : DiagFactor K} {f21 : SubFactor K} {f22 : DiagFactor K} {n1 n2 : Nat}
    (h11 : DiagOk f11 n1) (h21 : SubOk f21 n2 n1) (h22 : DiagOk f22 n2) (hp : PermsOk f21 f22 n1 n2)
    {init21 init22 : Init K} (hi21 : InitDims init21 n2 n1) (hi22 : InitDims init22 n2 n2) :
    (Closed2 f11.sparsity.Has f21.sparsity.Has f22.sparsity.Has ∧ InitSubset init21 init22 f21 f22 ∧
      factorizeStaticAsserts f11 init21 init22 f21 f22 = .ok ()) ∨
    (¬ (Closed2 f11.sparsity.Has f21.sparsity.Has f22.sparsity.Has ∧ InitSubset init21 init22 f21 f22) ∧
      factorizeStaticAsserts f11 init21 init22 f21 f22 = .error .staticAssert) := by
  have g11 := h11.good.ok.inRange
  have g21 := h21.good.ok.inRange
  have g22 := h22.good.ok.inRange
  obtain ⟨b1, hb1, hc1⟩ := isChordalBlocked_sat (s11 := f11.sparsity.toSparsity) (s21 := f21.sparsity.toSparsity)
    (s22 := f22.sparsity.toSparsity) (by rw [h11.rows, h11.cols]) (by rw [h22.rows, h22.cols])
    (by rw [h21.cols, h11.cols]) (by rw [h21.rows, h22.rows]) g11 g21 g22 h11.good.nodup h21.good.nodup
    h22.good.nodup (by rw [h11.rows, h22.rows]; exact hp.bound)
  have hcl : b1 = true ↔ Closed2 f11.sparsity.Has f21.sparsity.Has f22.sparsity.Has := by
    rw [hc1, h11.rows]
    have := fillFree_assembled2 (n1 := n1) (G11 := f11.sparsity.Has) (G21 := f21.sparsity.Has)
      (G22 := f22.sparsity.Has) h11.lower h22.lower (fun i j h => h11.rows ▸ h11.good.row_lt h)
      (fun i j h => h21.cols ▸ h21.good.col_lt h)
    rw [← this]
    exact ⟨fun h => h.2.2, fun h => ⟨h11.lower, h22.lower, h⟩⟩
  obtain ⟨b2, hb2, hc2⟩ := C08_subset_lower_triangle init22.sparsity f22.sparsity.toSparsity hi22.1 g22
    (by rw [hi22.2.1, hi22.2.2]) (by rw [hi22.2.1, h22.rows]) (by rw [hi22.2.2, h22.cols]) f22.permutation
    (by rw [hi22.2.1]; exact hp.p22)
  have hs2 : b2 = true ↔ ∀ i j, LowerPermuted init22.sparsity f22.permutation i j → f22.sparsity.Has i j := by
    rw [hc2]
    constructor
    · rintro h i j ⟨h1, h2, h3⟩
      rw [hi22.2.1] at h2
      exact h i j _ _ (hp.p22.get?_eq h2) (hp.p22.get?_eq (by omega)) h1 h3
    · intro h i j a c ha hc hlt hh
      have hi : i < n2 := by rw [← hp.p22.length]; exact (List.getElem?_eq_some_iff.mp ha).1
      have ha' : permAt f22.permutation i = a := by rw [hp.p22.get?_eq hi] at ha; exact Option.some.inj ha
      have hc' : permAt f22.permutation j = c := by
        rw [hp.p22.get?_eq (by omega)] at hc; exact Option.some.inj hc
      subst ha' hc'
      exact h i j ⟨hlt, by rw [hi22.2.1]; exact hi, hh⟩
  obtain ⟨b3, hb3, hc3⟩ := C08_subset init21.sparsity f21.sparsity.toSparsity hi21.1 g21
    (by rw [hi21.2.1, h21.rows]) (by rw [hi21.2.2, h21.cols]) f21.permutationRow f21.permutationCol
    (by rw [hi21.2.1]; exact hp.prow) (by rw [hi21.2.2]; exact hp.pcol)
  have hs3 : b3 = true ↔
      ∀ i j, RectPermuted init21.sparsity f21.permutationRow f21.permutationCol i j → f21.sparsity.Has i j := by
    rw [hc3]
    constructor
    · rintro h i j ⟨h1, h2, h3⟩
      rw [hi21.2.1] at h1
      rw [hi21.2.2] at h2
      exact h i j _ _ (hp.prow.get?_eq h1) (hp.pcol.get?_eq h2) h3
    · intro h i j a c ha hc hh
      have hi : i < n2 := by rw [← hp.prow.length]; exact (List.getElem?_eq_some_iff.mp ha).1
      have hj : j < n1 := by rw [← hp.pcol.length]; exact (List.getElem?_eq_some_iff.mp hc).1
      have ha' : permAt f21.permutationRow i = a := by rw [hp.prow.get?_eq hi] at ha; exact Option.some.inj ha
      have hc' : permAt f21.permutationCol j = c := by
        rw [hp.pcol.get?_eq hj] at hc; exact Option.some.inj hc
      subst ha' hc'
      exact h i j ⟨by rw [hi21.2.1]; exact hi, by rw [hi21.2.2]; exact hj, hh⟩
  unfold factorizeStaticAsserts InitSubset
  rw [hb1, ok_bind]
  rw [← hcl, ← hs2, ← hs3]
  cases b1 with
  | false => exact Or.inr ⟨by simp, rfl⟩
  | true =>
    rw [staticAssert_true rfl, ok_bind]
    simp only
    rw [make_self hi22.1, ok_bind, hb2, ok_bind]
    cases b2 with
    | false => exact Or.inr ⟨by simp, rfl⟩
    | true =>
      rw [staticAssert_true rfl, ok_bind, make_self hi21.1, ok_bind, hb3, ok_bind]
      cases b3 with
      | false => exact Or.inr ⟨by simp, rfl⟩
      | true => exact Or.inl ⟨by simp, by simp, staticAssert_true rfl⟩

/-- What a method computes for row `i`. -/
def MethodRow (method : Method) (c11 c21 c22 : Csr) (l11 : Nat → Nat → K) (d1 : Nat → K) (a21 a22 : Nat → Nat → K)
    (aD : Nat → K) (reg : K → Nat → K) (l21 l22 : Nat → Nat → K) (d2 : Nat → K) (i : Nat) : Prop :=
  match method with
  | .upLooking => UpRow c11 c21 c22 l11 d1 a21 a22 aD reg l21 l22 d2 i
  | .entryWise => EntryRow c11 c21 c22 l11 d1 a21 a22 aD reg l21 l22 d2 i

/-- Factorization of two blocks with either method: it succeeds and computes what it should, for any arithmetic. -/
theorem factorizeBlocks_sat {f11 : DiagFactor K} {f21 : SubFactor K} {f22 : DiagFactor K} {n1 n2 : Nat}
    (h11 : DiagOk f11 n1) (h21 : SubOk f21 n2 n1) (h22 : DiagOk f22 n2) (hp : PermsOk f21 f22 n1 n2)
    {init21 init22 : Init K} (hd21 : InitDims init21 n2 n1) (hd22 : InitDims init22 n2 n2)
    (hi21 : InitOk init21 f21.sparsity) (hi22 : InitOk init22 f22.sparsity)
    (hcl : Closed2 f11.sparsity.Has f21.sparsity.Has f22.sparsity.Has) (hsub : InitSubset init21 init22 f21 f22)
    (reg : K → Nat → K) (method : Method) :
    Sat (factorizeBlocks f11 init21 init22 f21 f22 reg method)
      (fun st => ∃ L21 L22 D, st = ({ f21 with L := L21 }, { f22 with L := L22, D := D }) ∧
      L21.length = f21.sparsity.entries.length ∧ L22.length = f22.sparsity.entries.length ∧ D.length = n2 ∧
      ∀ i < n2, MethodRow method f11.sparsity f21.sparsity f22.sparsity f11.l f11.d (a21Of init21 f21)
        (a22Of init22 f22) (aDOf init22 f22) reg (val f21.sparsity L21) (val f22.sparsity L22)
        (fun a => D.getD a 0) i) := by
  have hst : factorizeStaticAsserts f11 init21 init22 f21 f22 = .ok () := by
    rcases staticAsserts_eq h11 h21 h22 hp hd21 hd22 with h | h
    · exact h.2.2
    · exact absurd ⟨hcl, hsub⟩ h.1
  cases method with
  | upLooking =>
    simp only [factorizeBlocks, factorizeUpLooking]
    rw [hst, ok_bind]
    exact upLooking_loop_sat ⟨h11, h21, h22, hcl.c21, hcl.c22, hcl.c22'⟩ hi21 hi22 reg
  | entryWise =>
    simp only [factorizeBlocks, factorizeEntryWise]
    rw [hst, ok_bind]
    exact entryWise_loop_sat h11 h21 h22 hi21 hi22 reg

end

end Ctldl
