import Verif.Lemmas.FilledIn

/-! # Splitting fill-in into blocks: helper lemmas -/

namespace Ctldl

theorem Sparsity.IsPattern.inRange {s : Sparsity} {r c : Nat} {P : Nat → Nat → Prop} (h : s.IsPattern r c P) :
    s.InRange := by
  obtain ⟨h1, h2, -, h3⟩ := h
  intro e he
  have := (h3 e.row e.col).mp he
  omega

theorem Sparsity.IsPattern.congr {s : Sparsity} {r c : Nat} {P Q : Nat → Nat → Prop} (h : s.IsPattern r c P)
    (hPQ : ∀ i j, i < r → j < c → (P i j ↔ Q i j)) : s.IsPattern r c Q := by
  obtain ⟨h1, h2, h3, h4⟩ := h
  refine ⟨h1, h2, h3, fun i j => ?_⟩
  rw [h4]
  constructor
  · rintro ⟨a, b, c⟩; exact ⟨a, b, (hPQ i j a b).mp c⟩
  · rintro ⟨a, b, c⟩; exact ⟨a, b, (hPQ i j a b).mpr c⟩

theorem Sparsity.IsPattern.unique {s t : Sparsity} {r c : Nat} {P : Nat → Nat → Prop} (hs : s.IsPattern r c P)
    (ht : t.IsPattern r c P) : s = t := by
  obtain ⟨h1, h2, h3, h4⟩ := hs
  obtain ⟨g1, g2, g3, g4⟩ := ht
  have : s.entries = t.entries := sorted_unique h3 g3 fun e =>
    ((h4 e.row e.col).trans (g4 e.row e.col).symm)
  cases s; cases t
  simp only at *
  subst h1 h2 g1 g2 this
  rfl

theorem makeSorted_sat {r c : Nat} {l : List Entry} {P : Nat → Nat → Prop} (hl : l.Nodup)
    (hm : ∀ i j, (⟨i, j⟩ : Entry) ∈ l ↔ i < r ∧ j < c ∧ P i j) :
    Sat (Sparsity.make r c (sortEntriesRowMajor l)) (fun s => s.IsPattern r c P) := by
  have h : (⟨r, c, sortEntriesRowMajor l⟩ : Sparsity).InRange := by
    intro e he
    have := (hm e.row e.col).mp ((sort_perm l).mem_iff.mp he)
    exact ⟨this.1, this.2.1⟩
  exact ⟨_, make_eq h, rfl, rfl, sort_sorted hl, fun i j => ((sort_perm l).mem_iff).trans (hm i j)⟩

/-! ### Permuted blocks in compressed form -/

/-- The block `s` of a symmetric matrix as compressed strictly lower triangle. -/
theorem lowerCsr_sat {s : Sparsity} {p : List Nat} (hs : s.InRange) (hsq : s.numRows = s.numCols)
    (hp : IsPerm p s.numRows) :
    ∃ t c, getSparsityLowerTriangle s p = .ok t ∧ t.toCsr = .ok c ∧ c.Ok ∧ c.numRows = s.numRows ∧
      c.numCols = s.numCols ∧ ∀ i j, c.toSparsity.Has i j ↔ LowerPermuted s p i j := by
  obtain ⟨q, -, hq⟩ := invertPermutation_sat hp
  refine ⟨_, _, getSparsityLowerTriangle_eq hs hsq hq, toCsr_eq ?_, csrOf_ok ?_, rfl, rfl, ?_⟩
  rotate_right
  · intro i j
    unfold LowerPermuted
    refine (csrOf_mem ?_).trans ?_
    · intro e he
      obtain ⟨e', he', rfl⟩ := List.mem_map.mp he
      have h1 := mem_strictLower.mp he'
      have h2 := hs e' h1.1
      have h3 := hq.right.lt h2.1
      have h4 := hq.right.lt (i := e'.col) (by omega)
      simp only [relabelLower]
      omega
    · by_cases hi : i < s.numRows
      · rw [mem_relabelLower hs hsq hq hi]
        simp [hi]
      · simp only [hi, false_and, and_false, iff_false]
        intro he
        obtain ⟨e', he', h0⟩ := List.mem_map.mp he
        have h1 := mem_strictLower.mp he'
        have h2 := hs e' h1.1
        have h3 := hq.right.lt h2.1
        have h4 := hq.right.lt (i := e'.col) (by omega)
        have := congrArg Entry.row h0
        simp only [relabelLower] at this
        omega
  all_goals
    intro e he
    obtain ⟨e', he', rfl⟩ := List.mem_map.mp he
    have h1 := mem_strictLower.mp he'
    have h2 := hs e' h1.1
    have h3 := hq.right.lt h2.1
    have h4 := hq.right.lt (i := e'.col) (by omega)
    simp only [relabelLower]
    omega

/-- A rectangular block in compressed form. -/
theorem rectCsr_sat {s : Sparsity} {pr pc : List Nat} (hs : s.InRange) (hr : IsPerm pr s.numRows)
    (hc : IsPerm pc s.numCols) :
    ∃ t c, getSparsityPermuted s pr pc = .ok t ∧ t.toCsr = .ok c ∧ c.Ok ∧ c.numRows = s.numRows ∧
      c.numCols = s.numCols ∧ ∀ i j, c.toSparsity.Has i j ↔ RectPermuted s pr pc i j := by
  obtain ⟨qr, -, hqr⟩ := invertPermutation_sat hr
  obtain ⟨qc, -, hqc⟩ := invertPermutation_sat hc
  have hin := relabel_inRange hs hqr.right hqc.right
  refine ⟨_, _, getSparsityPermuted_eq hs hqr hqc, toCsr_eq hin, csrOf_ok hin, rfl, rfl, ?_⟩
  intro i j
  unfold RectPermuted
  refine (csrOf_mem fun e he => (hin e he).1).trans ?_
  by_cases h : i < s.numRows ∧ j < s.numCols
  · rw [mem_relabel hs hqr hqc h.1 h.2]
    simp [h]
  · constructor
    · intro he
      exact absurd (hin _ he) h
    · rintro ⟨h1, h2, -⟩; exact absurd ⟨h1, h2⟩ h

theorem getFilledInSparsity_sat {s : Sparsity} {p : List Nat} (hs : s.InRange) (hsq : s.numRows = s.numCols)
    (hp : IsPerm p s.numRows) (hn : s.numRows ≤ noParent) :
    Sat (getFilledInSparsity s p) (fun f => f.IsPattern s.numRows s.numRows (Fill (LowerPermuted s p))) := by
  obtain ⟨t, c, h1, h2, hok, hr, hc, hm⟩ := lowerCsr_sat hs hsq hp
  unfold getFilledInSparsity
  rw [pre_true (by simp [isSquare, hsq]), ok_bind, pre_true (by simp [hp.length]), ok_bind, h1, ok_bind, h2,
    ok_bind]
  unfold getEntriesWithFill
  simp only [bind_assoc, pure_bind]
  refine Sat.bind (foreachNonZeroWithFill_sat hok (by omega) (by omega) fun i j h => ((hm i j).mp h).1) ?_
  rintro calls ⟨hnd, hcalls⟩
  have hcalls' : ∀ i j, (⟨i, j⟩ : Entry) ∈ calls ↔ Fill (LowerPermuted s p) i j := fun i j =>
    (hcalls ⟨i, j⟩).trans (Fill.congr fun a b _ => hm a b)
  refine makeSorted_sat hnd ?_
  intro i j
  rw [hcalls']
  constructor
  · intro h
    have h3 := h.row_bound (n := s.numRows) fun a b hab => hab.2.1
    have := h.lt
    exact ⟨h3, by omega, h⟩
  · exact fun h => h.2.2

/-! ### Splitting -/

/-- The part of a list of positions in a given window, shifted to the origin. -/
def pick (rlo rn clo cn : Nat) (e : Entry) : Option Entry :=
  if rlo ≤ e.row ∧ e.row < rlo + rn ∧ clo ≤ e.col ∧ e.col < clo + cn then some ⟨e.row - rlo, e.col - clo⟩
  else none

theorem mem_pick {l : List Entry} {rlo rn clo cn a b : Nat} :
    (⟨a, b⟩ : Entry) ∈ l.filterMap (pick rlo rn clo cn) ↔
      a < rn ∧ b < cn ∧ (⟨a + rlo, b + clo⟩ : Entry) ∈ l := by
  rw [List.mem_filterMap]
  constructor
  · rintro ⟨e, he, h⟩
    unfold pick at h
    split at h
    · rename_i hc
      cases h
      refine ⟨by omega, by omega, ?_⟩
      rw [show e.row - rlo + rlo = e.row by omega, show e.col - clo + clo = e.col by omega]
      exact he
    · cases h
  · rintro ⟨h1, h2, h3⟩
    refine ⟨_, h3, ?_⟩
    unfold pick
    rw [if_pos (by simp only; omega)]
    simp

theorem nodup_pick {l : List Entry} (h : l.Nodup) (rlo rn clo cn : Nat) :
    (l.filterMap (pick rlo rn clo cn)).Nodup := by
  refine List.Nodup.filterMap ?_ h
  intro a a' b hb hb'
  simp only [Option.mem_def] at hb hb'
  unfold pick at hb hb'
  split at hb
  · split at hb'
    · rw [← hb] at hb'
      simp only [Option.some.injEq, Entry.mk.injEq] at hb'
      cases a; cases a'
      simp only at *
      congr 1 <;> omega
    · cases hb'
  · cases hb

theorem splitBlocked_sat {n1 n2 n3 : Nat} {calls : List Entry}
    (h : ∀ e ∈ calls, e.col < e.row ∧ e.row < n1 + n2 + n3) :
    calls.foldlM (addNonzeroBlocked n1 n2 n1 n2) ⟨[], [], [], [], [], []⟩ = .ok
      ⟨calls.filterMap (pick 0 n1 0 n1), calls.filterMap (pick n1 n2 0 n1), calls.filterMap (pick n1 n2 n1 n2),
        calls.filterMap (pick (n1 + n2) n3 0 n1), calls.filterMap (pick (n1 + n2) n3 n1 n2),
        calls.filterMap (pick (n1 + n2) n3 (n1 + n2) n3)⟩ := by
  obtain ⟨x, hx, h'⟩ := foldlM_inv (f := addNonzeroBlocked n1 n2 n1 n2) (l := calls)
    (init := ⟨[], [], [], [], [], []⟩) (fun l s => s =
      ⟨l.filterMap (pick 0 n1 0 n1), l.filterMap (pick n1 n2 0 n1), l.filterMap (pick n1 n2 n1 n2),
        l.filterMap (pick (n1 + n2) n3 0 n1), l.filterMap (pick (n1 + n2) n3 n1 n2),
        l.filterMap (pick (n1 + n2) n3 (n1 + n2) n3)⟩) rfl (by
      rintro l ⟨i, j⟩ suf s hl rfl
      obtain ⟨h1, h2⟩ := h ⟨i, j⟩ (by rw [hl]; simp)
      simp only at h1 h2
      unfold addNonzeroBlocked
      simp only [List.filterMap_append, List.filterMap_cons, List.filterMap_nil, pick]
      by_cases a1 : j < n1
      · rw [if_pos a1]
        by_cases a2 : i < n1
        · rw [if_pos a2]
          refine ⟨_, rfl, ?_⟩
          rw [if_pos (by omega), if_neg (by omega), if_neg (by omega), if_neg (by omega), if_neg (by omega),
            if_neg (by omega)]
          simp
        · rw [if_neg a2]
          by_cases a3 : i < n1 + n2
          · rw [if_pos a3, usub_ok (by omega)]
            refine ⟨_, rfl, ?_⟩
            rw [if_neg (by omega), if_pos (by omega), if_neg (by omega), if_neg (by omega), if_neg (by omega),
              if_neg (by omega)]
            simp
          · rw [if_neg a3, usub_ok (by omega), ok_bind, usub_ok (by omega)]
            refine ⟨_, rfl, ?_⟩
            rw [if_neg (by omega), if_neg (by omega), if_neg (by omega), if_pos (by omega), if_neg (by omega),
              if_neg (by omega)]
            simp [Nat.sub_sub]
      · rw [if_neg a1]
        by_cases a2 : j < n1 + n2
        · rw [if_pos a2]
          by_cases a3 : i < n1 + n2
          · rw [if_pos a3, usub_ok (by omega), ok_bind, usub_ok (by omega)]
            refine ⟨_, rfl, ?_⟩
            rw [if_neg (by omega), if_neg (by omega), if_pos (by omega), if_neg (by omega), if_neg (by omega),
              if_neg (by omega)]
            simp
          · rw [if_neg a3, usub_ok (by omega), ok_bind, usub_ok (by omega), ok_bind, usub_ok (by omega)]
            refine ⟨_, rfl, ?_⟩
            rw [if_neg (by omega), if_neg (by omega), if_neg (by omega), if_neg (by omega), if_pos (by omega),
              if_neg (by omega)]
            simp [Nat.sub_sub]
        · rw [if_neg a2, usub_ok (by omega), ok_bind, usub_ok (by omega), ok_bind, usub_ok (by omega), ok_bind,
            usub_ok (by omega)]
          refine ⟨_, rfl, ?_⟩
          rw [if_neg (by omega), if_neg (by omega), if_neg (by omega), if_neg (by omega), if_neg (by omega),
            if_pos (by omega)]
          simp [Nat.sub_sub])
  rw [hx, h']

/-! ### The blocked fill-in -/

theorem Assembled3.congr {n1 n2 : Nat} {G11 G21 G22 G31 G32 G33 H11 H21 H22 H31 H32 H33 : Nat → Nat → Prop}
    (h11 : ∀ i j, G11 i j ↔ H11 i j) (h21 : ∀ i j, G21 i j ↔ H21 i j) (h22 : ∀ i j, G22 i j ↔ H22 i j)
    (h31 : ∀ i j, G31 i j ↔ H31 i j) (h32 : ∀ i j, G32 i j ↔ H32 i j) (h33 : ∀ i j, G33 i j ↔ H33 i j)
    (i j : Nat) : Assembled3 n1 n2 G11 G21 G22 G31 G32 G33 i j ↔ Assembled3 n1 n2 H11 H21 H22 H31 H32 H33 i j := by
  unfold Assembled3
  rw [h11, h21, h22, h31, h32, h33]

/-- The assembled pattern of the permuted blocks. -/
def permutedAssembled (in11 in21 in22 in31 in32 in33 : Sparsity) (p1 p2 p3 : List Nat) : Nat → Nat → Prop :=
  Assembled3 in11.numRows in22.numRows (LowerPermuted in11 p1) (RectPermuted in21 p2 p1) (LowerPermuted in22 p2)
    (RectPermuted in31 p3 p1) (RectPermuted in32 p3 p2) (LowerPermuted in33 p3)

theorem permutedAssembled_bound {in11 in21 in22 in31 in32 in33 : Sparsity} {p1 p2 p3 : List Nat}
    (hd : DimsOk3 in11 in21 in22 in31 in32 in33) {i j : Nat}
    (h : permutedAssembled in11 in21 in22 in31 in32 in33 p1 p2 p3 i j) :
    i < in11.numRows + in22.numRows + in33.numRows := by
  have := hd.r21; have := hd.r31; have := hd.r32
  rcases h with h | ⟨h4, h⟩ | ⟨h4, h5, h⟩ | ⟨h4, h⟩ | ⟨h4, h5, h⟩ | ⟨h4, h5, h⟩
  · have := h.2.1; omega
  · have := h.1; omega
  · have := h.2.1; omega
  · have := h.1; omega
  · have := h.1; omega
  · have := h.2.1; omega

theorem getFilledInSparsityBlocked3x3_sat {in11 in21 in22 in31 in32 in33 : Sparsity} {p1 p2 p3 : List Nat}
    (hd : DimsOk3 in11 in21 in22 in31 in32 in33)
    (h11 : in11.InRange) (h21 : in21.InRange) (h22 : in22.InRange) (h31 : in31.InRange) (h32 : in32.InRange)
    (h33 : in33.InRange) (hp1 : IsPerm p1 in11.numRows) (hp2 : IsPerm p2 in22.numRows)
    (hp3 : IsPerm p3 in33.numRows) (hn : in11.numRows + in22.numRows + in33.numRows ≤ noParent) :
    Sat (getFilledInSparsityBlocked3x3 in11 in21 in22 in31 in32 in33 p1 p2 p3) (fun f =>
      f.block11.IsPattern in11.numRows in11.numRows
        (fun i j => Fill (permutedAssembled in11 in21 in22 in31 in32 in33 p1 p2 p3) i j) ∧
      f.block21.IsPattern in22.numRows in11.numRows
        (fun i j => Fill (permutedAssembled in11 in21 in22 in31 in32 in33 p1 p2 p3) (in11.numRows + i) j) ∧
      f.block22.IsPattern in22.numRows in22.numRows
        (fun i j => Fill (permutedAssembled in11 in21 in22 in31 in32 in33 p1 p2 p3)
          (in11.numRows + i) (in11.numRows + j)) ∧
      f.block31.IsPattern in33.numRows in11.numRows
        (fun i j => Fill (permutedAssembled in11 in21 in22 in31 in32 in33 p1 p2 p3)
          (in11.numRows + in22.numRows + i) j) ∧
      f.block32.IsPattern in33.numRows in22.numRows
        (fun i j => Fill (permutedAssembled in11 in21 in22 in31 in32 in33 p1 p2 p3)
          (in11.numRows + in22.numRows + i) (in11.numRows + j)) ∧
      f.block33.IsPattern in33.numRows in33.numRows
        (fun i j => Fill (permutedAssembled in11 in21 in22 in31 in32 in33 p1 p2 p3)
          (in11.numRows + in22.numRows + i) (in11.numRows + in22.numRows + j))) := by
  obtain ⟨q1, q2, q3, q4, q5, q6, q7, q8, q9⟩ := hd
  obtain ⟨t11, c11, a11, b11, ok11, r11, s11, m11⟩ := lowerCsr_sat h11 q1 hp1
  obtain ⟨t22, c22, a22, b22, ok22, r22, s22, m22⟩ := lowerCsr_sat h22 q2 hp2
  obtain ⟨t33, c33, a33, b33, ok33, r33, s33, m33⟩ := lowerCsr_sat h33 q3 hp3
  obtain ⟨t21, c21, a21, b21, ok21, r21, s21, m21⟩ := rectCsr_sat (pr := p2) (pc := p1) h21
    (by rw [q5]; exact hp2) (by rw [q4, ← q1]; exact hp1)
  obtain ⟨t31, c31, a31, b31, ok31, r31, s31, m31⟩ := rectCsr_sat (pr := p3) (pc := p1) h31
    (by rw [q8]; exact hp3) (by rw [q6, ← q1]; exact hp1)
  obtain ⟨t32, c32, a32, b32, ok32, r32, s32, m32⟩ := rectCsr_sat (pr := p3) (pc := p2) h32
    (by rw [q9]; exact hp3) (by rw [q7, ← q2]; exact hp2)
  unfold getFilledInSparsityBlocked3x3
  rw [pre_true (by simp [isSquare, q1]), ok_bind, pre_true (by simp [isSquare, q2]), ok_bind,
    pre_true (by simp [q4]), ok_bind, pre_true (by simp [q5]), ok_bind]
  rw [a11, ok_bind, b11, ok_bind, a21, ok_bind, b21, ok_bind, a22, ok_bind, b22, ok_bind, a31, ok_bind, b31,
    ok_bind, a32, ok_bind, b32, ok_bind, a33, ok_bind, b33, ok_bind]
  refine Sat.bind (foreachNonZeroWithFillBlocked3x3_sat ⟨by omega, by omega, by omega, by omega, by omega,
    by omega, by omega, by omega, by omega⟩ ok11 ok21 ok22 ok31 ok32 ok33 (fun i j h => ((m11 i j).mp h).1)
    (fun i j h => ((m22 i j).mp h).1) (fun i j h => ((m33 i j).mp h).1) (by omega)) ?_
  rintro calls ⟨hnd, hcalls⟩
  have hG : ∀ i j, assembledHas c11.toSparsity c21.toSparsity c22.toSparsity c31.toSparsity c32.toSparsity
      c33.toSparsity i j ↔ permutedAssembled in11 in21 in22 in31 in32 in33 p1 p2 p3 i j := by
    intro i j
    unfold assembledHas permutedAssembled
    rw [r11, r22]
    exact Assembled3.congr m11 m21 m22 m31 m32 m33 i j
  have hcalls' : ∀ i j, (⟨i, j⟩ : Entry) ∈ calls ↔
      Fill (permutedAssembled in11 in21 in22 in31 in32 in33 p1 p2 p3) i j := fun i j =>
    (hcalls ⟨i, j⟩).trans (Fill.congr fun a b _ => hG a b)
  have hbound : ∀ e ∈ calls, e.col < e.row ∧ e.row < in11.numRows + in22.numRows + in33.numRows := by
    intro e he
    have h := (hcalls' e.row e.col).mp he
    exact ⟨h.lt, h.row_bound fun a b hab =>
      permutedAssembled_bound ⟨q1, q2, q3, q4, q5, q6, q7, q8, q9⟩ hab⟩
  generalize Fill (permutedAssembled in11 in21 in22 in31 in32 in33 p1 p2 p3) = F at hcalls' ⊢
  rw [show c11.numCols = c11.numRows by omega, show c22.numCols = c22.numRows by omega, r11, r22,
    splitBlocked_sat hbound, ok_bind]
  simp only
  refine Sat.bind (makeSorted_sat (nodup_pick hnd _ _ _ _) (P := F) ?_) fun f11 g11 => ?_
  · intro i j; rw [mem_pick, hcalls']; simp
  refine Sat.bind (makeSorted_sat (nodup_pick hnd _ _ _ _) (P := fun i j => F (in11.numRows + i) j) ?_)
    fun f21 g21 => ?_
  · intro i j
    rw [mem_pick, hcalls', Nat.add_comm i, Nat.add_zero, show c21.numRows = in22.numRows by omega,
      show c21.numCols = in11.numRows by omega]
  refine Sat.bind (makeSorted_sat (nodup_pick hnd _ _ _ _)
    (P := fun i j => F (in11.numRows + i) (in11.numRows + j)) ?_) fun f22 g22 => ?_
  · intro i j
    rw [mem_pick, hcalls', Nat.add_comm i, Nat.add_comm j]
  refine Sat.bind (makeSorted_sat (nodup_pick hnd _ _ _ _)
    (P := fun i j => F (in11.numRows + in22.numRows + i) j) ?_) fun f31 g31 => ?_
  · intro i j
    rw [mem_pick, hcalls', Nat.add_comm i, Nat.add_zero, show c31.numRows = in33.numRows by omega,
      show c31.numCols = in11.numRows by omega]
  refine Sat.bind (makeSorted_sat (nodup_pick hnd _ _ _ _)
    (P := fun i j => F (in11.numRows + in22.numRows + i) (in11.numRows + j)) ?_) fun f32 g32 => ?_
  · intro i j
    rw [mem_pick, hcalls', Nat.add_comm i, Nat.add_comm j, show c32.numRows = in33.numRows by omega,
      show c32.numCols = in22.numRows by omega]
  refine Sat.bind (makeSorted_sat (nodup_pick hnd _ _ _ _)
    (P := fun i j => F (in11.numRows + in22.numRows + i) (in11.numRows + in22.numRows + j)) ?_)
    fun f33 g33 => ?_
  · intro i j
    rw [mem_pick, hcalls', Nat.add_comm i, Nat.add_comm j, show c33.numRows = in33.numRows by omega,
      show c33.numCols = in33.numRows by omega]
  refine Sat.pure ⟨g11, ?_, g22, ?_, ?_, ?_⟩
  · rw [show c21.numRows = in22.numRows by omega, show c21.numCols = in11.numRows by omega] at g21; exact g21
  · rw [show c31.numRows = in33.numRows by omega, show c31.numCols = in11.numRows by omega] at g31; exact g31
  · rw [show c32.numRows = in33.numRows by omega, show c32.numCols = in22.numRows by omega] at g32; exact g32
  · rw [show c33.numRows = in33.numRows by omega, show c33.numCols = in33.numRows by omega] at g33; exact g33

end Ctldl
