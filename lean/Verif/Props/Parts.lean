import Verif.Lemmas.Parts
import Verif.Props.Textbook
import Verif.Props.Lockstep

/-! # C84: parts of a system which are not coupled do not influence each other -/

namespace Ctldl

open Finset

variable {K : Type} [Zero K] [Sub K] [Mul K] [Div K]

omit [Zero K] [Sub K] [Mul K] [Div K] in
private theorem idx_lt {p : List Nat} {n : Nat} (hp : IsPerm p n) {i : Nat} (hi : i < n) : p.idxOf i < n := by
  have := List.idxOf_lt_length_of_mem (hp.mem_iff.mpr hi)
  rwa [hp.length] at this

omit [Zero K] [Sub K] [Mul K] [Div K] in
private theorem permAt_idx {p : List Nat} {n : Nat} (hp : IsPerm p n) {i : Nat} (hi : i < n) : permAt p (p.idxOf i) = i := by
  have := List.idxOf_lt_length_of_mem (hp.mem_iff.mpr hi)
  rw [permAt, List.getD_eq_getElem _ _ this, List.getElem_idxOf]

omit [Zero K] [Sub K] [Mul K] [Div K] in
private theorem idx_permAt {p : List Nat} {n : Nat} (hp : IsPerm p n) {a : Nat} (ha : a < n) : p.idxOf (permAt p a) = a :=
  hp.inj (idx_lt hp (hp.lt ha)) ha (permAt_idx hp (hp.lt ha))

omit [Zero K] [Sub K] [Mul K] [Div K] in
private theorem lowerPermuted_iff {s : Sparsity} {p : List Nat} {a b : Nat} :
    LowerPermuted s p a b ↔ b < a ∧ a < s.numRows ∧ s.Coupled (permAt p a) (permAt p b) := Iff.rfl

omit [Zero K] [Sub K] [Mul K] [Div K] in
private theorem coupled_comm {s : Sparsity} {i j : Nat} : s.Coupled i j ↔ s.Coupled j i := by
  rw [Sparsity.Coupled, Sparsity.Coupled, max_comm, min_comm]

omit [Zero K] [Sub K] [Mul K] [Div K] in
private theorem fill_lt {s : Sparsity} {p : List Nat} : ∀ i j, Fill (LowerPermuted s p) i j → j < i := fun _ _ h => h.lt

/-- What a part has to do with the order of elimination. -/
private structure PartOk (s : Sparsity) (p : List Nat) (s' : Sparsity) (p' : List Nat) (S : Nat → Prop) (φ : Nat → Nat) : Prop where
  range : ∀ a, S a → a < s.numRows ∧ φ a < s'.numRows
  mono : ∀ a b, S a → S b → a < b → φ a < φ b
  closed : ∀ a b, S a → Fill (LowerPermuted s p) a b → S b
  closed' : ∀ a b, S a → Fill (LowerPermuted s p) b a → S b
  row : ∀ a, S a → ∀ k, Fill (LowerPermuted s' p') (φ a) k ↔ ∃ b, Fill (LowerPermuted s p) a b ∧ φ b = k
  col : ∀ a, S a → ∀ k, Fill (LowerPermuted s' p') k (φ a) ↔ ∃ b, Fill (LowerPermuted s p) b a ∧ φ b = k

omit [Zero K] [Sub K] [Mul K] [Div K] in
private theorem partOk {s : Sparsity} {p : List Nat} (hp : IsPerm p s.numRows) {s' : Sparsity} {p' : List Nat}
    (hp' : IsPerm p' s'.numRows) {S : Nat → Prop} {e : Nat → Nat} (h : SamePart s p s' p' S e) :
    PartOk s p s' p' (fun a => a < s.numRows ∧ S (permAt p a)) (fun a => p'.idxOf (e (permAt p a))) := by
  have hmono : ∀ a b, (a < s.numRows ∧ S (permAt p a)) → (b < s.numRows ∧ S (permAt p b)) → a < b →
      p'.idxOf (e (permAt p a)) < p'.idxOf (e (permAt p b)) := fun a b ha hb hab =>
    h.order _ _ ha.2 hb.2 (by rwa [idx_permAt hp ha.1, idx_permAt hp hb.1])
  have hat : ∀ a, S (permAt p a) → permAt p' (p'.idxOf (e (permAt p a))) = e (permAt p a) := fun a ha =>
    permAt_idx hp' (h.inside _ ha).2
  have hback : ∀ k, k < s'.numRows → ∀ j, S j → e j = permAt p' k →
      ∃ b, (b < s.numRows ∧ S (permAt p b)) ∧ p'.idxOf (e (permAt p b)) = k := by
    intro k hk j hj hjk
    obtain ⟨b, hb, rfl⟩ := hp.surj (h.inside j hj).1
    exact ⟨b, ⟨hb, hj⟩, by rw [hjk, idx_permAt hp' hk]⟩
  have hrefl : ∀ a b, (a < s.numRows ∧ S (permAt p a)) → (b < s.numRows ∧ S (permAt p b)) →
      p'.idxOf (e (permAt p a)) < p'.idxOf (e (permAt p b)) → a < b := by
    intro a b ha hb hab
    by_contra h'
    rcases Nat.lt_or_eq_of_le (Nat.le_of_not_lt h') with h' | rfl
    · have := hmono b a hb ha h'
      omega
    · omega
  have hlow : ∀ a b, (a < s.numRows ∧ S (permAt p a)) → (b < s.numRows ∧ S (permAt p b)) → b < a →
      (s'.Coupled (e (permAt p a)) (e (permAt p b)) ↔ s.Coupled (permAt p a) (permAt p b)) := fun a b ha hb hba =>
    h.coupled _ _ ha.2 hb.2 fun h' => by
      have := hp.inj ha.1 hb.1 h'
      omega
  have hrow : ∀ a, (a < s.numRows ∧ S (permAt p a)) → ∀ k, LowerPermuted s' p' (p'.idxOf (e (permAt p a))) k →
      ∃ b, (b < s.numRows ∧ S (permAt p b)) ∧ LowerPermuted s p a b ∧ p'.idxOf (e (permAt p b)) = k := by
    intro a ha k hk
    obtain ⟨k1, k2, k3⟩ := lowerPermuted_iff.mp hk
    rw [hat a ha.2] at k3
    have hk' : k < s'.numRows := by omega
    obtain ⟨j, hj, hjk⟩ := h.separate' _ _ ha.2 (hp'.lt hk') k3
    obtain ⟨b, hb, rfl⟩ := hback k hk' j hj hjk
    have hba := hrefl b a hb ha k1
    rw [hat b hb.2, hlow a b ha hb hba] at k3
    exact ⟨b, hb, lowerPermuted_iff.mpr ⟨hba, ha.1, k3⟩, rfl⟩
  have hcol : ∀ a, (a < s.numRows ∧ S (permAt p a)) → ∀ k, LowerPermuted s' p' k (p'.idxOf (e (permAt p a))) →
      ∃ b, (b < s.numRows ∧ S (permAt p b)) ∧ LowerPermuted s p b a ∧ p'.idxOf (e (permAt p b)) = k := by
    intro a ha k hk
    obtain ⟨k1, k2, k3⟩ := lowerPermuted_iff.mp hk
    rw [hat a ha.2] at k3
    obtain ⟨j, hj, hjk⟩ := h.separate' _ _ ha.2 (hp'.lt k2) (coupled_comm.mp k3)
    obtain ⟨b, hb, rfl⟩ := hback k k2 j hj hjk
    have hba := hrefl a b ha hb k1
    rw [hat b hb.2, hlow b a hb ha hba] at k3
    exact ⟨b, hb, lowerPermuted_iff.mpr ⟨hba, hb.1, k3⟩, rfl⟩
  have hto : ∀ a b, LowerPermuted s p a b →
      ((a < s.numRows ∧ S (permAt p a)) ∨ (b < s.numRows ∧ S (permAt p b))) →
      (a < s.numRows ∧ S (permAt p a)) ∧ (b < s.numRows ∧ S (permAt p b)) ∧
        LowerPermuted s' p' (p'.idxOf (e (permAt p a))) (p'.idxOf (e (permAt p b))) := by
    intro a b hab hS
    obtain ⟨h1, h2, h3⟩ := lowerPermuted_iff.mp hab
    have hb' : b < s.numRows := by omega
    have : (a < s.numRows ∧ S (permAt p a)) ∧ (b < s.numRows ∧ S (permAt p b)) := by
      rcases hS with hS | hS
      · exact ⟨hS, hb', h.separate _ _ hS.2 (hp.lt hb') h3⟩
      · exact ⟨⟨h2, h.separate _ _ hS.2 (hp.lt h2) (coupled_comm.mp h3)⟩, hS⟩
    refine ⟨this.1, this.2, lowerPermuted_iff.mpr ⟨hmono _ _ this.2 this.1 h1, idx_lt hp' (h.inside _ this.1.2).2, ?_⟩⟩
    rw [hat a this.1.2, hat b this.2.2, hlow a b this.1 this.2 h1]
    exact h3
  have hinj : ∀ a b, (a < s.numRows ∧ S (permAt p a)) → (b < s.numRows ∧ S (permAt p b)) →
      p'.idxOf (e (permAt p a)) = p'.idxOf (e (permAt p b)) → a = b := by
    intro a b ha hb hab
    rcases Nat.lt_trichotomy a b with h' | h' | h'
    · have := hmono a b ha hb h'
      omega
    · exact h'
    · have := hmono b a hb ha h'
      omega
  refine ⟨fun a ha => ⟨ha.1, idx_lt hp' (h.inside _ ha.2).2⟩, hmono, fun a b ha hab => ?_, fun a b ha hab => ?_,
    fun a ha k => ⟨fun hk => ?_, ?_⟩, fun a ha k => ⟨fun hk => ?_, ?_⟩⟩
  · exact (fill_part_to hmono hto hab (.inl ha)).2.1
  · exact (fill_part_to hmono hto hab (.inr ha)).1
  · obtain ⟨i, j, hi, hj, h1, h2, h3⟩ := fill_part hmono hrow hcol hk (.inl ⟨a, ha, rfl⟩)
    obtain rfl := hinj _ _ hi ha h1
    exact ⟨j, h3, h2⟩
  · rintro ⟨b, hb, rfl⟩
    exact (fill_part_to hmono hto hb (.inl ha)).2.2
  · obtain ⟨i, j, hi, hj, h1, h2, h3⟩ := fill_part hmono hrow hcol hk (.inr ⟨a, ha, rfl⟩)
    obtain rfl := hinj _ _ hj ha h2
    exact ⟨i, h3, h1⟩
  · rintro ⟨b, hb, rfl⟩
    exact (fill_part_to hmono hto hb (.inr ha)).2.2

/-- C84: let two matrices have the same part which is not coupled with the rest of them, with the same entries in it, and
let the right-hand sides have the same elements there. Then, in any arithmetic, pivots, factor and solution have the same
elements there, to the last digit and whatever the rest of the matrices and right-hand sides is. The second matrix may
consist of that part only (or the first one). -/
theorem C84_part (s : Sparsity) (p : List Nat) (hv : ValidSparsity s p) (s' : Sparsity) (p' : List Nat)
    (hv' : ValidSparsity s' p') (S : Nat → Prop) (e : Nat → Nat) (h : SamePart s p s' p' S e)
    (f : DiagFactor K) (hf : f.Declared s p) (f' : DiagFactor K) (hf' : f'.Declared s' p')
    (m : MatIn K) (hm : m.Fits s p) (m' : MatIn K) (hm' : m'.Fits s' p')
    (hval : ∀ i j, S i → S j → m'.sym (e i) (e j) = m.sym i j)
    (reg reg' : K → Nat → K) (hreg : ∀ i, S i → ∀ x, reg' x (p'.idxOf (e i)) = reg x (p.idxOf i)) (method : Method)
    (b : List K) (hb : b.length = s.numRows) (b' : List K) (hb' : b'.length = s'.numRows)
    (hrhs : ∀ i, S i → b'.getD (e i) 0 = b.getD i 0) :
    ∃ g g' x x', f.factorize m reg method = .ok g ∧ f'.factorize m' reg' method = .ok g' ∧
      g.solveInPlace b = .ok x ∧ g'.solveInPlace b' = .ok x' ∧
      (∀ i, S i → g'.pivot (p'.idxOf (e i)) = g.pivot (p.idxOf i)) ∧
      (∀ i j, S i → S j → g'.lower (p'.idxOf (e i)) (p'.idxOf (e j)) = g.lower (p.idxOf i) (p.idxOf j)) ∧
      ∀ i, S i → x'.getD (e i) 0 = x.getD i 0 := by
  obtain ⟨g, h1, hg⟩ := C25_factorize_total s p hv f hf m hm reg method
  obtain ⟨g', h1', hg'⟩ := C25_factorize_total s' p' hv' f' hf' m' hm' reg' method
  obtain ⟨x, h2, -, hx⟩ := C73_solve s p hv g hg b hb
  obtain ⟨x', h2', -, hx'⟩ := C73_solve s' p' hv' g' hg' b' hb'
  obtain ⟨g0, h0, hF, hz⟩ := C73_factor s p hv f hf m hm reg method
  obtain rfl : g = g0 := Except.ok.inj (h1.symm.trans h0)
  obtain ⟨g0, h0, hF', hz'⟩ := C73_factor s' p' hv' f' hf' m' hm' reg' method
  obtain rfl : g' = g0 := Except.ok.inj (h1'.symm.trans h0)
  have hp := hv.perm
  have hp' := hv'.perm
  have ho := partOk hp hp' h
  have hM := Embedded.of_rows fill_lt fill_lt ho.range ho.mono ho.closed ho.row
  have hat : ∀ a, S (permAt p a) → permAt p' (p'.idxOf (e (permAt p a))) = e (permAt p a) := fun a ha =>
    permAt_idx hp' (h.inside _ ha).2
  obtain ⟨hL, hD⟩ := hM.same_method fill_lt fill_lt hF hF' (fun i j hij => by
      beta_reduce
      rw [hat i hij.1.2, hat j (ho.closed i j hij.1 hij.2).2]
      exact hval _ _ hij.1.2 (ho.closed i j hij.1 hij.2).2) (fun i hi => by
      beta_reduce
      rw [hat i hi.2]
      exact hval _ _ hi.2 hi.2) (fun i hi x => by
      rw [hreg _ hi.2, idx_permAt hp hi.1])
  have hX := hM.same_solution fill_lt ho.mono (fun i j hi hj => ⟨(ho.range j (ho.closed' i j hi hj)).1, ho.closed' i j hi hj⟩)
    (fun i hi k _ => ho.col i hi k) hx hx' hL hD (fun i hi => by
      beta_reduce
      rw [hat i hi.2]
      exact hrhs _ hi.2)
  refine ⟨g, g', x, x', h1, h1', h2, h2', fun i hi => ?_, fun i j hi hj => ?_, fun i hi => ?_⟩
  · obtain ⟨a, ha, rfl⟩ := hp.surj (h.inside i hi).1
    rw [idx_permAt hp ha]
    exact hD a ⟨ha, hi⟩
  · obtain ⟨a, ha, rfl⟩ := hp.surj (h.inside i hi).1
    obtain ⟨b, hb, rfl⟩ := hp.surj (h.inside j hj).1
    rw [idx_permAt hp ha, idx_permAt hp hb]
    by_cases hab : Fill (LowerPermuted s p) a b
    · exact hL a b ⟨⟨ha, hi⟩, hab⟩
    · rw [hz _ _ hab, hz']
      intro hab'
      obtain ⟨c, hc, hcb⟩ := (ho.row a ⟨ha, hi⟩ _).mp hab'
      have hc' := ho.closed _ _ ⟨ha, hi⟩ hc
      rcases Nat.lt_trichotomy c b with h' | rfl | h'
      · have := ho.mono _ _ hc' ⟨hb, hj⟩ h'
        omega
      · exact hab hc
      · have := ho.mono _ _ ⟨hb, hj⟩ hc' h'
        omega
  · obtain ⟨a, ha, rfl⟩ := hp.surj (h.inside i hi).1
    have := hX a ⟨ha, hi⟩
    beta_reduce at this
    rwa [hat a hi] at this

/-- C84: pivots and factor of the leading rows, in the order of elimination, depend on the leading rows and columns of the
matrix only: they are the same for all matrices which begin in the same way, whatever follows. -/
theorem C84_leading (s : Sparsity) (p : List Nat) (hv : ValidSparsity s p) (s' : Sparsity) (p' : List Nat)
    (hv' : ValidSparsity s' p') (r : Nat) (h : SameLeading s p s' p' r)
    (f : DiagFactor K) (hf : f.Declared s p) (f' : DiagFactor K) (hf' : f'.Declared s' p')
    (m : MatIn K) (hm : m.Fits s p) (m' : MatIn K) (hm' : m'.Fits s' p')
    (hval : ∀ i < r, ∀ j ≤ i, m'.sym (permAt p' i) (permAt p' j) = m.sym (permAt p i) (permAt p j))
    (reg reg' : K → Nat → K) (hreg : ∀ i < r, ∀ x, reg' x i = reg x i) (method : Method) :
    ∃ g g', f.factorize m reg method = .ok g ∧ f'.factorize m' reg' method = .ok g' ∧
      ∀ i < r, g'.pivot i = g.pivot i ∧ ∀ j, g'.lower i j = g.lower i j := by
  obtain ⟨g, h1, hF, hz⟩ := C73_factor s p hv f hf m hm reg method
  obtain ⟨g', h1', hF', hz'⟩ := C73_factor s' p' hv' f' hf' m' hm' reg' method
  obtain ⟨r1, r2, hr⟩ := h
  have hfill : ∀ i < r, ∀ j, Fill (LowerPermuted s' p') i j ↔ Fill (LowerPermuted s p) i j := fun i hi j =>
    ⟨fun h => fill_leading (r := r) (fun a ha b hb hab => lowerPermuted_iff.mpr
        ⟨hb, by omega, (hr a ha b hb).mpr (lowerPermuted_iff.mp hab).2.2⟩) h hi,
      fun h => fill_leading (r := r) (fun a ha b hb hab => lowerPermuted_iff.mpr
        ⟨hb, by omega, (hr a ha b hb).mp (lowerPermuted_iff.mp hab).2.2⟩) h hi⟩
  have hM : Embedded (Fill (LowerPermuted s p)) s.numRows (Fill (LowerPermuted s' p')) s'.numRows (· < r)
      (fun i j => i < r ∧ Fill (LowerPermuted s p) i j) id :=
    .of_rows fill_lt fill_lt (fun i hi => ⟨by omega, by show i < _; omega⟩) (fun i j _ _ hij => hij)
      (fun i j hi hij => hij.lt.trans hi) fun i hi k => (hfill i hi k).trans ⟨fun h => ⟨k, h, rfl⟩, by
        rintro ⟨j, hj, rfl⟩
        exact hj⟩
  obtain ⟨hL, hD⟩ := hM.same_method fill_lt fill_lt hF hF' (fun i j hij => hval i hij.1 j hij.2.lt.le)
    (fun i hi => hval i hi i le_rfl) (fun i hi x => hreg i hi x)
  refine ⟨g, g', h1, h1', fun i hi => ⟨hD i hi, fun j => ?_⟩⟩
  by_cases hij : Fill (LowerPermuted s p) i j
  · exact hL i j ⟨hi, hij⟩
  · rw [hz _ _ hij, hz' _ _ (fun h => hij ((hfill i hi j).mp h))]

omit [Zero K] [Sub K] [Mul K] [Div K] in
/-- Numbers for the whole matrix which are given by blocks. -/
private theorem exists_whole (T : ArrowheadTypes) (d : Dims) (N : Nat) :
    ∃ e : Nat → Σ _ : Blk, Nat, ∀ k ∈ positions d N, e (d.place N k) = k := by
  have hex : ∀ r, ∃ k, r < d.total N → k ∈ positions d N ∧ d.place N k = r := fun r => by
    by_cases hr : r < d.total N
    · obtain ⟨k, hk, h⟩ := exists_place hr T
      exact ⟨k, fun _ => ⟨hk, h⟩⟩
    · exact ⟨⟨.start, 0⟩, fun h => absurd h hr⟩
  choose e he using hex
  exact ⟨e, fun k hk => place_inj T (he _ (place_lt hk T)).1 hk (he _ (place_lt hk T)).2⟩

section Repeating

variable {s : ArrowheadSparsity} {d : Dims} {T : ArrowheadTypes} {N N' M : Nat}

omit [Zero K] [Sub K] [Mul K] [Div K] in
private theorem whole_iff {k l : Σ _ : Blk, Nat} (hk : k ∈ positions d N) (hl : l ∈ positions d N) :
    wholePattern T d N (d.place N k) (d.place N l) ↔ T.Has N k.1 k.2 l.1 l.2 := by
  constructor
  · rintro ⟨k', hk', l', hl', h1, h2, h3⟩
    rwa [place_inj T hk hk' h1, place_inj T hl hl' h2]
  · exact fun h => ⟨k, hk, l, hl, rfl, rfl, h⟩

omit [Zero K] [Sub K] [Mul K] [Div K] in
private theorem early_positions (hM : M ≤ N) {k : Σ _ : Blk, Nat} (hk : k.1.EarlyIn M ∨ k.1 = .outer)
    (hi : k.2 < d.of k.1) : k ∈ positions d N := by
  refine mem_positions.mpr ⟨mem_blocks.mpr fun t ht => ?_, hi⟩
  rcases hk with hk | hk
  · rw [ht] at hk
    have : t ≤ M := hk
    omega
  · rw [ht] at hk
    cases hk

omit [Zero K] [Sub K] [Mul K] [Div K] in
private theorem early_iff (hM : M ≤ N) {k : Σ _ : Blk, Nat} (hk : k ∈ positions d N) :
    k.1.EarlyIn M ↔ d.place N k < d.start + (M + 1) * d.tridiag := by
  obtain ⟨a, i⟩ := k
  obtain ⟨h1, h2⟩ := mem_positions.mp hk
  have h3 := Nat.mul_le_mul_right d.tridiag (Nat.add_le_add_right hM 1)
  cases a with
  | start =>
    refine iff_of_true trivial ?_
    simp only [Dims.place, Dims.before, Dims.of] at *
    omega
  | tridiag t =>
    show t ≤ M ↔ _
    simp only [Dims.place, Dims.before, Dims.of] at *
    constructor
    · intro ht
      have := Nat.mul_le_mul_right d.tridiag (Nat.add_le_add_right ht 1)
      rw [Nat.add_mul t] at this
      omega
    · intro h
      by_contra ht
      have := Nat.mul_le_mul_right d.tridiag (show M + 1 ≤ t by omega)
      omega
  | link =>
    refine iff_of_false id ?_
    simp only [Dims.place, Dims.before, Dims.of] at *
    omega
  | outer =>
    refine iff_of_false id ?_
    simp only [Dims.place, Dims.before, Dims.of] at *
    omega

omit [Zero K] [Sub K] [Mul K] [Div K] in
private theorem outer_iff {k : Σ _ : Blk, Nat} (hk : k ∈ positions d N) : k.1 = .outer ↔ d.before N .outer ≤ d.place N k := by
  obtain ⟨a, i⟩ := k
  obtain ⟨h1, h2⟩ := mem_positions.mp hk
  cases a with
  | tridiag t =>
    have ht := mem_blocks.mp h1 t rfl
    have := Nat.mul_le_mul_right d.tridiag (show t + 1 ≤ N + 1 by omega)
    rw [Nat.add_mul t] at this
    refine iff_of_false (by simp) ?_
    simp only [Dims.place, Dims.before, Dims.of] at *
    omega
  | outer =>
    refine iff_of_true rfl ?_
    simp only [Dims.place, Dims.before, Dims.of] at *
    omega
  | _ =>
    refine iff_of_false (by simp) ?_
    simp only [Dims.place, Dims.before, Dims.of] at *
    omega

omit [Zero K] [Sub K] [Mul K] [Div K] in
private theorem early_lower {a b : Blk} (ha : a.EarlyIn M) {i j : Nat} (h : T.Has N a i b j) : b.EarlyIn M := by
  rcases h with ⟨rfl, -⟩ | ⟨G, hG, -⟩
  · exact ha
  · rcases a with _ | (_ | t) | _ | _ <;> rcases b with _ | u | _ | _ <;>
      simp only [ArrowheadTypes.lowerBlock, Option.map_none, reduceCtorEq] at hG
    · trivial
    · split at hG
      · have : t + 1 ≤ M := ha
        show u ≤ M
        omega
      · cases hG
    · exact ha.elim
    · exact ha.elim
    · exact ha.elim
    · exact ha.elim

omit [Zero K] [Sub K] [Mul K] [Div K] in
private theorem has_iff_early (hM : M ≤ N) (hM' : M ≤ N') {a b : Blk} (ha : a.EarlyIn M ∨ a = .outer) (hb : b.EarlyIn M)
    (i j : Nat) : T.Has N a i b j ↔ T.Has N' a i b j := by
  have : T.lowerBlock N a b = T.lowerBlock N' a b := by
    rcases a with _ | (_ | t) | _ | _ <;> rcases b with _ | u | _ | _ <;> simp only [ArrowheadTypes.lowerBlock]
    · rcases ha with ha | ha
      · have : t + 1 ≤ M := ha
        have e1 : (u = t ∧ t < N) ↔ (u = t ∧ t < N') := ⟨fun h => ⟨h.1, by omega⟩, fun h => ⟨h.1, by omega⟩⟩
        simp only [e1]
      · cases ha
    · rcases ha with ha | ha
      · exact ha.elim
      · cases ha
    · have : u ≤ M := hb
      rw [if_pos (by omega), if_pos (by omega)]
  unfold ArrowheadTypes.Has blockPattern
  beta_reduce
  rw [this]

omit [Zero K] [Sub K] [Mul K] [Div K] in
private theorem place_early {k : Σ _ : Blk, Nat} (hk : k.1.EarlyIn M) : d.place N k = d.place N' k := by
  obtain ⟨a, i⟩ := k
  cases a with
  | link => exact hk.elim
  | outer => exact hk.elim
  | _ => rfl

omit [Zero K] [Sub K] [Mul K] [Div K] in
private theorem whole_lower (hs : s.Valid d) (hT : arrowheadTypes s = .ok T) (hsmall : d.total N ≤ noParent) :
    ∀ i j, wholePattern T d N i j → j < i := by
  obtain ⟨S, P, hv, hA, -⟩ := C71_assembled s d hs T hT N hsmall
  rintro i j ⟨k, hk, l, hl, rfl, rfl, h⟩
  exact ((hA.pattern k hk l hl).mpr h).lt

omit [Sub K] [Mul K] [Div K] in
private theorem stored_zero {f : ArrowheadFactor K} (hf : f.Declared s T d N) {k l : Σ _ : Blk, Nat}
    (hk : k ∈ positions d N) (hl : l ∈ positions d N) (h : ¬ T.Has N k.1 k.2 l.1 l.2) : f.storedAt N k l = 0 := by
  rw [storedAt_chainPos hf (mem_positions.mp hk).1 (mem_positions.mp hl).1, posVal, if_neg]
  rwa [posHas_chainPos (mem_positions.mp hk).1 (mem_positions.mp hl).1]

end Repeating

/-- C84: the factor of the first blocks of a repeating block matrix does not depend on what follows: neither on the number
of repetitions nor on the later blocks, the links and the outer block. Nor do the rows of the factor of the outer block
in the columns of the first blocks. -/
theorem C84_repeating (s : ArrowheadSparsity) (d : Dims) (hs : s.Valid d) (T : ArrowheadTypes) (N N' M : Nat) (hM : M ≤ N)
    (hM' : M ≤ N') (hsmall : d.total N ≤ noParent) (hsmall' : d.total N' ≤ noParent)
    (f : ArrowheadFactor K) (hf : f.Declared s T d N) (f' : ArrowheadFactor K) (hf' : f'.Declared s T d N')
    (A : ArrowheadMatrix K) (hA : A.Fits s T d N) (A' : ArrowheadMatrix K) (hA' : A'.Fits s T d N')
    (hval : ∀ a c : Blk, (a.EarlyIn M ∨ a = .outer) → c.EarlyIn M → ∀ i < d.of a, ∀ j < d.of c,
      A'.symElement N' a c i j = A.symElement N a c i j) (reg : K → Nat → K) (method : Method) :
    ∃ g g', f.factorize d.tridiag d.link d.outer A reg method = .ok g ∧
      f'.factorize d.tridiag d.link d.outer A' reg method = .ok g' ∧
      (∀ a : Blk, a.EarlyIn M → ∀ i < d.of a, g'.pivotAt a i = g.pivotAt a i) ∧
      ∀ a c : Blk, (a.EarlyIn M ∨ a = .outer) → c.EarlyIn M → ∀ i < d.of a, ∀ j < d.of c,
        g'.storedAt N' ⟨a, i⟩ ⟨c, j⟩ = g.storedAt N ⟨a, i⟩ ⟨c, j⟩ := by
  obtain ⟨e, he⟩ := exists_whole T d N
  obtain ⟨e', he'⟩ := exists_whole T d N'
  obtain ⟨g, h1, a, L, D, ha, hL, hD, hF⟩ := C73_repeating s d hs T N hsmall f hf A hA reg (fun x r => reg x (e r).2)
    (fun k hk x => by rw [he k hk]) method
  obtain ⟨g', h1', a', L', D', ha', hL', hD', hF'⟩ := C73_repeating s d hs T N' hsmall' f' hf' A' hA' reg
    (fun x r => reg x (e' r).2) (fun k hk x => by rw [he' k hk]) method
  obtain ⟨g0, h0, hg⟩ := C21_factorize_total s d hs T N f hf A hA reg method
  obtain rfl : g = g0 := Except.ok.inj (h1.symm.trans h0)
  obtain ⟨g0, h0, hg'⟩ := C21_factorize_total s d hs T N' f' hf' A' hA' reg method
  obtain rfl : g' = g0 := Except.ok.inj (h1'.symm.trans h0)
  have hP := whole_lower hs hf.types hsmall
  have hP' := whole_lower hs hf'.types hsmall'
  let B := d.start + (M + 1) * d.tridiag
  have hB : B ≤ d.before N .link := Nat.add_le_add_left (Nat.mul_le_mul_right d.tridiag (Nat.add_le_add_right hM 1)) _
  have hB' : B ≤ d.before N' .link := Nat.add_le_add_left (Nat.mul_le_mul_right d.tridiag (Nat.add_le_add_right hM' 1)) _
  have hlo : ∀ N, d.before N .link ≤ d.before N .outer := fun N => Nat.le_add_right _ _
  have hot : ∀ N, d.before N .outer ≤ d.total N := fun N => Nat.le_add_right _ _
  have hlo1 := hlo N
  have hlo2 := hlo N'
  have hot1 := hot N
  have hot2 := hot N'
  let φ : Nat → Nat := fun r => if r < B then r else r - d.before N .outer + d.before N' .outer
  have hφB : ∀ r, r < B → φ r = r := fun r hr => if_pos hr
  have hφ : ∀ k ∈ positions d N, (k.1.EarlyIn M ∨ k.1 = .outer) → φ (d.place N k) = d.place N' k := by
    intro k hk h
    rcases h with h | h
    · rw [hφB _ ((early_iff hM hk).mp h), place_early h]
    · have h2 := (outer_iff hk).mp h
      show (if d.place N k < B then d.place N k else d.place N k - d.before N .outer + d.before N' .outer) = _
      rw [if_neg (by omega), Dims.place, Dims.place, h]
      omega
  have hkind : ∀ k ∈ positions d N, (d.place N k < B ∨ d.before N .outer ≤ d.place N k) → (k.1.EarlyIn M ∨ k.1 = .outer) :=
    fun k hk h => h.imp (early_iff hM hk).mpr (outer_iff hk).mpr
  have hpos : ∀ k ∈ positions d N, (k.1.EarlyIn M ∨ k.1 = .outer) → k ∈ positions d N' := fun k hk h =>
    early_positions hM' h (mem_positions.mp hk).2
  have hiff : ∀ i < d.total N, (i < B ∨ d.before N .outer ≤ i) → ∀ j < B,
      (wholePattern T d N i j ↔ wholePattern T d N' (φ i) j) := by
    intro i hi h j hj
    obtain ⟨k, hk, rfl⟩ := exists_place hi T
    obtain ⟨l, hl, rfl⟩ := exists_place (show j < d.total N by omega) T
    have hk' := hkind k hk h
    have hl' := (early_iff hM hl).mpr hj
    rw [hφ k hk hk', place_early (N' := N') hl', ← place_early (N := N) (N' := N') hl', whole_iff hk hl,
      place_early (N' := N') hl', whole_iff (hpos k hk hk') (hpos l hl (.inl hl'))]
    exact has_iff_early hM hM' hk' hl' _ _
  have hlt : ∀ i < d.total N, (i < B ∨ d.before N .outer ≤ i) → φ i < d.total N' := by
    intro i hi h
    obtain ⟨k, hk, rfl⟩ := exists_place hi T
    rw [hφ k hk (hkind k hk h)]
    exact place_lt (hpos k hk (hkind k hk h)) T
  have hwt : ∀ i j, wholePattern T d N i j → i < d.total N := by
    rintro i j ⟨k, hk, -, -, rfl, -⟩
    exact place_lt hk T
  have hE : Embedded (wholePattern T d N) (d.total N) (wholePattern T d N') (d.total N') (· < B)
      (fun i j => j < B ∧ (i < B ∨ d.before N .outer ≤ i) ∧ wholePattern T d N i j) φ := by
    refine .of_entries hP hP' (fun i hi => ⟨by omega, hlt i (by omega) (.inl hi)⟩) (fun i j hi hj hij => ?_)
      (fun i j h => ⟨hwt i j h.2.2, hlt i (hwt i j h.2.2) h.2.1, h.2.2, h.1⟩)
      (fun i j h k hk h1 h2 => ⟨⟨hk.trans h.1, h.2.1, h1⟩, hk.trans h.1, .inl h.1, h2⟩)
      (fun i hi k hk => ⟨(hP i k hk).trans hi, .inl hi, hk⟩) (fun i j h => ?_) (fun i j h k hk h1 h2 => ?_)
      (fun i hi k hk => ?_)
    · rwa [hφB i hi, hφB j hj]
    · rw [hφB j h.1]
      exact (hiff i (hwt i j h.2.2) h.2.1 j h.1).mp h.2.2
    · rw [hφB j h.1] at hk h2
      have hj := h.1
      have hkB : k < B := hk.trans h.1
      refine ⟨k, (hiff i (hwt i j h.2.2) h.2.1 k hkB).mpr h1, (hiff j (by omega) (.inl h.1) k hkB).mpr ?_, hkB, hφB k hkB⟩
      rwa [hφB j h.1]
    · have hkB : k < B := by
        have := hP' _ _ hk
        rw [hφB i hi] at this
        omega
      exact ⟨k, (hiff i (by omega) (.inl hi) k hkB).mpr hk, hkB, hφB k hkB⟩
  have hAv : ∀ i j, i < d.total N → (i < B ∨ d.before N .outer ≤ i) → j < B → a' (φ i) (φ j) = a i j := by
    intro i j hi h hj
    obtain ⟨k, hk, rfl⟩ := exists_place hi T
    obtain ⟨l, hl, rfl⟩ := exists_place (show j < d.total N by omega) T
    have hk' := hkind k hk h
    have hl' := (early_iff hM hl).mpr hj
    rw [hφ k hk hk', hφ l hl (.inl hl'), ha' k (hpos k hk hk') l (hpos l hl (.inl hl')), ha k hk l hl]
    exact hval _ _ hk' hl' _ ((valid_perm hs _).lt (mem_positions.mp hk).2) _ ((valid_perm hs _).lt (mem_positions.mp hl).2)
  have hregv : ∀ i, i < B → ∀ x, reg x (e' (φ i)).2 = reg x (e i).2 := by
    intro i hi x
    obtain ⟨k, hk, rfl⟩ := exists_place (show i < d.total N by omega) T
    have hk' := (early_iff hM hk).mpr hi
    rw [hφ k hk (.inl hk'), he k hk, he' k (hpos k hk (.inl hk'))]
  obtain ⟨rL, rD⟩ : (∀ i j, (j < B ∧ (i < B ∨ d.before N .outer ≤ i) ∧ wholePattern T d N i j) → L' (φ i) (φ j) = L i j) ∧
      ∀ i, i < B → D' (φ i) = D i := by
    cases method with
    | upLooking =>
      refine hE.same hP (upLooking_mixed hP hF) (upLooking_mixed hP' hF') (fun i k h => ?_)
        (fun i j h => hAv i j (hwt i j h.2.2) h.2.1 h.1) (fun i hi => hAv i i (by omega) (.inl hi) hi) hregv
      have := hφB k h.1
      have := h.1
      exact iff_of_true (by omega) (by omega)
    | entryWise =>
      refine hE.same hP hF hF' (fun i k h => ?_)
        (fun i j h => hAv i j (hwt i j h.2.2) h.2.1 h.1) (fun i hi => hAv i i (by omega) (.inl hi) hi) hregv
      rw [hφB k h.1]
      have hk := h.1
      rcases h.2.1 with hi | hi
      · rw [hφB i hi]
        exact iff_of_false (by omega) (by omega)
      · refine iff_of_true (by omega) ⟨?_, by omega⟩
        show _ ≤ if i < B then i else _
        rw [if_neg (by omega)]
        omega
  refine ⟨g, g', h1, h1', fun b hb i hi => ?_, fun b c hb hc i hi j hj => ?_⟩
  · have hk : (⟨b, i⟩ : Σ _ : Blk, Nat) ∈ positions d N := early_positions hM (.inl hb) hi
    have := rD _ ((early_iff hM hk).mp hb)
    rwa [hφ _ hk (.inl hb), hD' _ (hpos _ hk (.inl hb)), hD _ hk] at this
  · have hk : (⟨b, i⟩ : Σ _ : Blk, Nat) ∈ positions d N := early_positions hM hb hi
    have hl : (⟨c, j⟩ : Σ _ : Blk, Nat) ∈ positions d N := early_positions hM (.inl hc) hj
    by_cases h : T.Has N b i c j
    · have := rL _ _ ⟨(early_iff hM hl).mp hc, hb.imp (early_iff hM hk).mp (outer_iff hk).mp, (whole_iff hk hl).mpr h⟩
      rwa [hφ _ hk hb, hφ _ hl (.inl hc), hL' _ (hpos _ hk hb) _ (hpos _ hl (.inl hc)), hL _ hk _ hl] at this
    · rw [stored_zero hg hk hl h, stored_zero hg' (hpos _ hk hb) (hpos _ hl (.inl hc))
        (fun h' => h ((has_iff_early hM hM' hb hc i j).mpr h'))]

/-- C84: unknowns of a repeating block matrix which are not coupled, by entries of the factor, with others are not
influenced by the values of others: with other values there, pivots, factor and solution of these unknowns are the same. -/
theorem C84_repeating_part (s : ArrowheadSparsity) (d : Dims) (hs : s.Valid d) (T : ArrowheadTypes) (N : Nat)
    (hsmall : d.total N ≤ noParent) (S : Blk → Nat → Prop)
    (hsep : ∀ k ∈ positions d N, ∀ l ∈ positions d N, T.Has N k.1 k.2 l.1 l.2 →
      (S k.1 (permAt (s.perm k.1) k.2) ↔ S l.1 (permAt (s.perm l.1) l.2)))
    (f : ArrowheadFactor K) (hf : f.Declared s T d N) (f' : ArrowheadFactor K) (hf' : f'.Declared s T d N)
    (A : ArrowheadMatrix K) (hA : A.Fits s T d N) (A' : ArrowheadMatrix K) (hA' : A'.Fits s T d N)
    (hval : ∀ a ∈ blocks N, ∀ c ∈ blocks N, ∀ i < d.of a, ∀ j < d.of c, S a i → S c j →
      A'.symElement N a c i j = A.symElement N a c i j)
    (reg : K → Nat → K) (method : Method) (b : ArrowheadVector K) (hb : b.OfSize d N) (b' : ArrowheadVector K)
    (hb' : b'.OfSize d N) (hrhs : ∀ a ∈ blocks N, ∀ i < d.of a, S a i → b'.at a i = b.at a i) :
    ∃ g g' x x', f.factorize d.tridiag d.link d.outer A reg method = .ok g ∧
      f'.factorize d.tridiag d.link d.outer A' reg method = .ok g' ∧
      g.solveInPlace b = .ok x ∧ g'.solveInPlace b' = .ok x' ∧
      (∀ k ∈ positions d N, S k.1 (permAt (s.perm k.1) k.2) → g'.pivotAt k.1 k.2 = g.pivotAt k.1 k.2 ∧
        ∀ l ∈ positions d N, g'.storedAt N k l = g.storedAt N k l) ∧
      ∀ a ∈ blocks N, ∀ i < d.of a, S a i → x'.at a i = x.at a i := by
  obtain ⟨e, he⟩ := exists_whole T d N
  obtain ⟨g, h1, a, L, D, ha, hL, hD, hF⟩ := C73_repeating s d hs T N hsmall f hf A hA reg (fun x r => reg x (e r).2)
    (fun k hk x => by rw [he k hk]) method
  obtain ⟨g', h1', a', L', D', ha', hL', hD', hF'⟩ := C73_repeating s d hs T N hsmall f' hf' A' hA' reg
    (fun x r => reg x (e r).2) (fun k hk x => by rw [he k hk]) method
  obtain ⟨g0, h0, hg⟩ := C21_factorize_total s d hs T N f hf A hA reg method
  obtain rfl : g = g0 := Except.ok.inj (h1.symm.trans h0)
  obtain ⟨g0, h0, hg'⟩ := C21_factorize_total s d hs T N f' hf' A' hA' reg method
  obtain rfl : g' = g0 := Except.ok.inj (h1'.symm.trans h0)
  obtain ⟨x, h2, M, E, v, w, hM, hE, hv, hw, hX⟩ := C73_repeating_solve s d hs T N hsmall g hg b hb
  obtain ⟨x', h2', M', E', v', w', hM', hE', hv', hw', hX'⟩ := C73_repeating_solve s d hs T N hsmall g' hg' b' hb'
  have hP := whole_lower hs hf.types hsmall
  let R : Nat → Prop := fun r => r < d.total N ∧ S (e r).1 (permAt (s.perm (e r).1) (e r).2)
  have hR : ∀ k ∈ positions d N, R (d.place N k) ↔ S k.1 (permAt (s.perm k.1) k.2) := fun k hk => by
    show _ ∧ _ ↔ _
    rw [he k hk]
    exact and_iff_right (place_lt hk T)
  have hclosed : ∀ i j, wholePattern T d N i j → (R i ↔ R j) := by
    rintro i j ⟨k, hk, l, hl, rfl, rfl, h⟩
    rw [hR k hk, hR l hl]
    exact hsep k hk l hl h
  have hEm := Embedded.of_rows (n := d.total N) (n' := d.total N) (S := R) (φ := id) hP hP (fun i hi => ⟨hi.1, hi.1⟩)
    (fun i j _ _ h => h) (fun i j hi hij => (hclosed i j hij).mp hi)
    (fun i _ k => ⟨fun h => ⟨k, h, rfl⟩, by rintro ⟨j, hj, rfl⟩; exact hj⟩)
  have hAv : ∀ i j, R i → R j → a' i j = a i j := by
    intro i j hi hj
    obtain ⟨k, hk, rfl⟩ := exists_place hi.1 T
    obtain ⟨l, hl, rfl⟩ := exists_place hj.1 T
    rw [ha k hk l hl, ha' k hk l hl]
    exact hval _ (mem_positions.mp hk).1 _ (mem_positions.mp hl).1 _ ((valid_perm hs _).lt (mem_positions.mp hk).2) _
      ((valid_perm hs _).lt (mem_positions.mp hl).2) ((hR k hk).mp hi) ((hR l hl).mp hj)
  obtain ⟨rL, rD⟩ : (∀ i j, (R i ∧ wholePattern T d N i j) → L' i j = L i j) ∧ ∀ i, R i → D' i = D i := by
    cases method with
    | upLooking =>
      exact hEm.same hP (upLooking_mixed hP hF) (upLooking_mixed hP hF') (fun _ _ _ => Iff.rfl)
        (fun i j h => hAv i j h.1 ((hclosed i j h.2).mp h.1)) (fun i hi => hAv i i hi hi) (fun _ _ _ => rfl)
    | entryWise =>
      exact hEm.same hP hF hF' (fun _ _ _ => Iff.rfl)
        (fun i j h => hAv i j h.1 ((hclosed i j h.2).mp h.1)) (fun i hi => hAv i i hi hi) (fun _ _ _ => rfl)
  have hpiv : ∀ k ∈ positions d N, S k.1 (permAt (s.perm k.1) k.2) → g'.pivotAt k.1 k.2 = g.pivotAt k.1 k.2 :=
    fun k hk hS => by rw [← hD k hk, ← hD' k hk, rD _ ((hR k hk).mpr hS)]
  have hst : ∀ k ∈ positions d N, S k.1 (permAt (s.perm k.1) k.2) → ∀ l ∈ positions d N,
      g'.storedAt N k l = g.storedAt N k l := by
    intro k hk hS l hl
    by_cases h : T.Has N k.1 k.2 l.1 l.2
    · rw [← hL k hk l hl, ← hL' k hk l hl, rL _ _ ⟨(hR k hk).mpr hS, (whole_iff hk hl).mpr h⟩]
    · rw [stored_zero hg hk hl h, stored_zero hg' hk hl h]
  refine ⟨g, g', x, x', h1, h1', h2, h2', fun k hk hS => ⟨hpiv k hk hS, hst k hk hS⟩, fun c hc i hi hS => ?_⟩
  have hsol := hEm.same_solution hP (fun i j _ _ h => h) (fun i j hi hij => ⟨((hclosed j i hij).mpr hi).1, (hclosed j i hij).mpr hi⟩)
    (fun i _ k _ => ⟨fun h => ⟨k, h, rfl⟩, by rintro ⟨j, hj, rfl⟩; exact hj⟩) hX hX' ?_ ?_ ?_
  · obtain ⟨r, hr, rfl⟩ := (valid_perm hs c).surj hi
    have hk : (⟨c, r⟩ : Σ _ : Blk, Nat) ∈ positions d N := mem_positions.mpr ⟨hc, hr⟩
    have := hsol _ ((hR _ hk).mpr hS)
    rw [id, hw _ hk, hw' _ hk] at this
    exact this
  · rintro i j ⟨hi, k, hk, l, hl, rfl, rfl, h⟩
    rw [id, id, hM k hk l hl, hM' k hk l hl]
    exact hst k hk ((hR k hk).mp hi) l hl
  · intro i hi
    obtain ⟨k, hk, rfl⟩ := exists_place hi.1 T
    rw [id, hE k hk, hE' k hk]
    exact hpiv k hk ((hR k hk).mp hi)
  · intro i hi
    obtain ⟨k, hk, rfl⟩ := exists_place hi.1 T
    rw [id, hv k hk, hv' k hk]
    exact hrhs _ (mem_positions.mp hk).1 _ ((valid_perm hs _).lt (mem_positions.mp hk).2) ((hR k hk).mp hi)

/-! ### Examples -/

/-- Witness: a pattern with two coupled unknowns, and one with two pairs of them (`1` and `3`; `0` and `2`), with an entry
of the upper triangle which does not matter. -/
def pairS : Sparsity := ⟨2, 2, [⟨0, 0⟩, ⟨1, 0⟩, ⟨1, 1⟩]⟩

def pairsS : Sparsity := ⟨4, 4, [⟨1, 1⟩, ⟨3, 1⟩, ⟨3, 3⟩, ⟨0, 0⟩, ⟨2, 0⟩, ⟨2, 2⟩, ⟨1, 2⟩]⟩

/-- Witness: double precision numbers; the other pair has a NaN, and a zero pivot. -/
def pairM : MatIn Double := ⟨pairS, [3, 1, 7].map (Binary.ofRat .binary64 false)⟩

def pairsM : MatIn Double := ⟨pairsS, [3, 1, 7].map (Binary.ofRat .binary64 false) ++ [.nan, .inf true, 0, .nan]⟩

theorem pair_valid : ValidSparsity pairS [1, 0] :=
  ⟨by unfold Sparsity.InRange; decide, rfl, by unfold IsPerm; decide, by decide⟩

theorem pairs_valid : ValidSparsity pairsS [2, 3, 0, 1] :=
  ⟨by unfold Sparsity.InRange; decide, rfl, by unfold IsPerm; decide, by decide⟩

instance (s : Sparsity) (i j : Nat) : Decidable (s.Coupled i j) := by unfold Sparsity.Coupled; infer_instance

/-- The hypotheses of `C84_part` are met. -/
theorem pair_part : SamePart pairS [1, 0] pairsS [2, 3, 0, 1] (· < 2) (fun i => 2 * i + 1) := by
  have h1 : ∀ i < 2, ∀ j < 2, i ≠ j → (pairsS.Coupled (2 * i + 1) (2 * j + 1) ↔ pairS.Coupled i j) := by decide
  have h2 : ∀ i < 2, ∀ k < 4, pairsS.Coupled (2 * i + 1) k → ∃ j < 2, 2 * j + 1 = k := by decide
  have h3 : ∀ i < 2, ∀ j < 2, [1, 0].idxOf i < [1, 0].idxOf j →
      [2, 3, 0, 1].idxOf (2 * i + 1) < [2, 3, 0, 1].idxOf (2 * j + 1) := by decide
  exact ⟨fun i hi => ⟨hi, by show _ < 4; omega⟩, fun i j hi hj h => h1 i hi j hj h, fun i j _ hj _ => hj,
    fun i k hi hk h => h2 i hi k hk h, fun i j hi hj h => h3 i hi j hj h⟩

example : pairM.Fits pairS [1, 0] ∧ pairsM.Fits pairsS [2, 3, 0, 1] ∧
    ∀ i j, i < 2 → j < 2 → pairsM.sym (2 * i + 1) (2 * j + 1) = pairM.sym i j := by
  refine ⟨⟨rfl, pair_valid.inRange, rfl, rfl, fun i j h => .base h h.1⟩,
    ⟨rfl, pairs_valid.inRange, rfl, rfl, fun i j h => .base h h.1⟩, fun i j hi hj => ?_⟩
  obtain rfl | rfl : i = 0 ∨ i = 1 := by omega
  all_goals obtain rfl | rfl : j = 0 ∨ j = 1 := by omega
  all_goals rfl

/-- Solving with the matrix of the pair, and with the one which contains it. -/
def pairSolve (s : Sparsity) (p : List Nat) (m : MatIn Double) (b : List Double) : Res (List Double) := do
  let c ← factorizationSparsity s p
  let f : DiagFactor Double := ⟨c, p, List.replicate c.entries.length .nan, List.replicate s.numRows .nan⟩
  let f ← f.factorize m regularizationNone .upLooking
  f.solveInPlace b

/-- The other pair of unknowns is NaN; the solution for this pair is not affected. -/
example : (do
    let x ← pairSolve pairS [1, 0] pairM ([5, 2].map (Binary.ofRat .binary64 false))
    let x' ← pairSolve pairsS [2, 3, 0, 1] pairsM [.inf false, .ofRat .binary64 false 5, .nan, .ofRat .binary64 false 2]
    return (x.map fun a => (Binary.number a).isSome, decide (x'.map Binary.number =
      [none, (x.getD 0 0).number, none, (x.getD 1 0).number]))) = .ok ([true, true], true) := by
  decide +kernel

/-- The hypotheses of `C84_leading` are met: the first two rows of the matrix of C22 in the order of elimination. -/
example : SameLeading witnessS [0, 2, 1] pairS [0, 1] 2 ∧ ValidSparsity pairS [0, 1] ∧
    ∀ i < 2, ∀ j < 2, j ≤ i → (⟨pairS, [4, 2, 5]⟩ : MatIn ℚ).sym (permAt [0, 1] i) (permAt [0, 1] j) =
      witnessM.sym (permAt [0, 2, 1] i) (permAt [0, 2, 1] j) := by
  refine ⟨⟨by decide, by decide, ?_⟩, ⟨by unfold Sparsity.InRange; decide, rfl, by unfold IsPerm; decide, by decide⟩, ?_⟩
  · decide
  · decide +kernel

/-- Witness: the matrix of C29 without repetition: other links, and another outer block. -/
def shortM : ArrowheadMatrix ℚ :=
  { arrowM with
    tridiagDiag := [⟨⟨2, 2, [⟨0, 0⟩, ⟨1, 0⟩, ⟨1, 1⟩]⟩, [3, 1, 4]⟩]
    tridiagSubdiag := []
    linkPrev := ⟨⟨1, 2, [⟨0, 0⟩]⟩, [-4]⟩
    linkDiag := ⟨⟨1, 1, [⟨0, 0⟩]⟩, [8]⟩
    outerSubdiag := [⟨⟨1, 2, []⟩, []⟩]
    outerDiag := ⟨⟨1, 1, [⟨0, 0⟩]⟩, [9]⟩ }

theorem shortM_fits {T : ArrowheadTypes} (hT : arrowheadTypes arrowS = .ok T) : shortM.Fits arrowS T arrowD 0 := by
  refine C21_declared_fits arrowS arrowD arrowS_valid T hT 0 shortM (by decide) (by decide) (by decide) ?_ ?_
  · have : ∀ b ∈ ([.start, .tridiag 0, .link, .outer] : List Blk), (shortM.diagBlock b).Sized ∧
        (shortM.diagBlock b).sparsity = arrowS.diagBlock b := by
      unfold MatIn.Sized
      decide +kernel
    intro b hb
    refine this b ?_
    rw [mem_blocks] at hb
    rcases b with _ | (_ | t) | _ | _
    any_goals simp
    have := hb _ rfl
    omega
  · intro a b q h
    rcases a with _ | (_ | t) | _ | _ <;> rcases b with _ | (_ | u) | _ | _ <;>
      simp only [ArrowheadMatrix.lowerBlock] at h <;> try contradiction
    all_goals first
      | (rw [← Option.some.inj h]; exact ⟨rfl, rfl⟩)
      | (split at h
         · omega
         · cases h)

/-- The hypotheses of `C84_repeating` are met by the matrix of C29 and this one. -/
example : ∃ T, arrowM.Fits arrowS T arrowD 1 ∧ shortM.Fits arrowS T arrowD 0 ∧
    (freshFactor arrowS T arrowD 1 (0 : ℚ)).Declared arrowS T arrowD 1 ∧
    (freshFactor arrowS T arrowD 0 (0 : ℚ)).Declared arrowS T arrowD 0 ∧
    (∀ a ∈ blocks 1, ∀ c ∈ blocks 1, (a = .start ∨ a = .tridiag 0 ∨ a = .outer) → (c = .start ∨ c = .tridiag 0) →
      ∀ i < arrowD.of a, ∀ j < arrowD.of c, shortM.symElement 0 a c i j = arrowM.symElement 1 a c i j) ∧
    shortM.symElement 0 .outer .outer 0 0 ≠ arrowM.symElement 1 .outer .outer 0 0 := by
  obtain ⟨T, hT⟩ := C21_instantiable arrowS arrowD arrowS_valid
  refine ⟨T, arrowM_fits hT, shortM_fits hT, C21_constructible arrowS arrowD T hT 1 0,
    C21_constructible arrowS arrowD T hT 0 0, ?_, ?_⟩
  · decide +kernel
  · decide +kernel

/-- Witness: unknowns `0` of the repeated blocks are coupled with each other only. -/
def partsS : ArrowheadSparsity where
  start := ⟨⟨1, 1, [⟨0, 0⟩]⟩, ⟨2, 1, [⟨1, 0⟩]⟩, ⟨1, 1, [⟨0, 0⟩]⟩, [0]⟩
  tridiag := ⟨⟨2, 2, [⟨0, 0⟩, ⟨1, 1⟩]⟩, ⟨2, 2, [⟨0, 0⟩]⟩, [1, 0]⟩
  link := ⟨⟨1, 2, [⟨0, 1⟩]⟩, ⟨1, 1, [⟨0, 0⟩]⟩, ⟨1, 1, [⟨0, 0⟩]⟩, [0]⟩
  outer := ⟨⟨1, 2, []⟩, ⟨1, 1, [⟨0, 0⟩]⟩, [0]⟩

/-- The unknowns. -/
def partsUnknown (a : Blk) (i : Nat) : Bool :=
  match a with
  | .tridiag _ => i == 0
  | _ => false

/-- The hypothesis of `C84_repeating_part` on the coupling is met. -/
example : partsS.Valid arrowD ∧ (arrowheadTypes partsS).map (fun T => decide (∀ k ∈ positions arrowD 2,
    ∀ l ∈ positions arrowD 2, T.Has 2 k.1 k.2 l.1 l.2 →
      (partsUnknown k.1 (permAt (partsS.perm k.1) k.2) ↔ partsUnknown l.1 (permAt (partsS.perm l.1) l.2)))) = .ok true := by
  constructor
  · constructor <;> first
      | exact ⟨by unfold Sparsity.InRange; decide, rfl, rfl⟩
      | (unfold IsPerm; decide)
      | decide
  · decide +kernel

end Ctldl
