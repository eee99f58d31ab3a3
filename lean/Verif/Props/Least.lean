import Verif.Spec.Least
import Verif.Lemmas.Least
import Verif.Props.Arrowhead

/-! # C86: the pattern of the factor is the smallest one which is the same for all repetitions -/

namespace Ctldl

variable {s : ArrowheadSparsity} {d : Dims} {N : Nat} {U : Blk → Nat → Blk → Nat → Prop}

private theorem tridiag_blocks {t : Nat} (ht : t ≤ N) : Blk.tridiag t ∈ blocks N :=
  mem_blocks.mpr fun u hu => by
    cases hu
    omega

private theorem start_blocks : Blk.start ∈ blocks N := mem_blocks.mpr fun u hu => by cases hu
private theorem link_blocks : Blk.link ∈ blocks N := mem_blocks.mpr fun u hu => by cases hu
private theorem outer_blocks : Blk.outer ∈ blocks N := mem_blocks.mpr fun u hu => by cases hu

private theorem closedTypes (hN : 1 ≤ N) (hU : UniformPattern N U) (hE : EliminationPattern s N U) :
    ClosedTypes s (fun i j => U .start i .start j) (fun i j => U (.tridiag 0) i .start j) (fun i j => U .outer i .start j)
      (fun i j => U (.tridiag 0) i (.tridiag 0) j) (fun i j => U (.tridiag 1) i (.tridiag 0) j)
      (fun i j => U .link i (.tridiag N) j) (fun i j => U .link i .link j) (fun i j => U .outer i .link j)
      (fun i j => U .outer i (.tridiag 0) j) (fun i j => U .outer i .outer j) := by
  have bs := start_blocks (N := N)
  have b0 := tridiag_blocks (Nat.zero_le N)
  have b1 := tridiag_blocks hN
  have bN := tridiag_blocks (Nat.le_refl N)
  have bl := link_blocks (N := N)
  have bo := outer_blocks (N := N)
  have low : ∀ {a b : Blk}, a.rank N < b.rank N → ∀ i j, Before N a i b j := fun h _ _ => .inl h
  have r0 : Blk.rank N .start < Blk.rank N (.tridiag 0) := by simp [Blk.rank]
  have r1 : Blk.rank N .start < Blk.rank N .outer := by simp [Blk.rank]
  have r2 : Blk.rank N (.tridiag 0) < Blk.rank N (.tridiag 1) := by simp [Blk.rank]
  have r3 : Blk.rank N (.tridiag 0) < Blk.rank N .outer := by simp [Blk.rank]
  have r4 : Blk.rank N (.tridiag 1) < Blk.rank N .outer := by simp only [Blk.rank]; omega
  have r5 : Blk.rank N (.tridiag N) < Blk.rank N .link := by simp [Blk.rank]
  have r6 : Blk.rank N .link < Blk.rank N .outer := by simp [Blk.rank]
  have r7 : Blk.rank N (.tridiag N) < Blk.rank N .outer := by simp [Blk.rank]
  have sTD : ∀ i j, LowerPermuted s.tridiag.diag s.tridiag.permutation i j → U (.tridiag 0) i (.tridiag 0) j :=
    fun i j hh => hE.declared _ b0 _ b0 i j (.inl ⟨rfl, hh⟩)
  have sOS : ∀ i j, RectPermuted s.outer.subdiag s.outer.permutation s.tridiag.permutation i j →
      U .outer i (.tridiag 0) j := fun i j hh => hE.declared _ bo _ b0 i j (.inr ⟨_, by
        simp only [ArrowheadSparsity.lowerBlock, if_pos (Nat.zero_le N), Option.map_some]; rfl, hh⟩)
  have sOD : ∀ i j, LowerPermuted s.outer.diag s.outer.permutation i j → U .outer i .outer j :=
    fun i j hh => hE.declared _ bo _ bo i j (.inl ⟨rfl, hh⟩)
  have dTD : ∀ i j k, U (.tridiag 0) i (.tridiag 0) j → U (.tridiag 0) k (.tridiag 0) j → k < i →
      U (.tridiag 0) i (.tridiag 0) k := fun i j k h1 h2 h3 => hE.closed _ b0 _ b0 _ b0 _ _ _ h1 h2 (.inr ⟨rfl, h3⟩)
  have dOD : ∀ i j k, U .outer i .outer j → U .outer k .outer j → k < i → U .outer i .outer k :=
    fun i j k h1 h2 h3 => hE.closed _ bo _ bo _ bo _ _ _ h1 h2 (.inr ⟨rfl, h3⟩)
  have oTD : ∀ i j k, U .outer i (.tridiag 0) j → U (.tridiag 0) k (.tridiag 0) j → U .outer i (.tridiag 0) k :=
    fun i j k h1 h2 => hE.closed _ bo _ b0 _ b0 _ _ _ h1 h2 (low r3 _ _)
  have oOD : ∀ i j k, U .outer i (.tridiag 0) j → U .outer k (.tridiag 0) j → k < i → U .outer i .outer k :=
    fun i j k h1 h2 h3 => hE.closed _ bo _ bo _ b0 _ _ _ h1 h2 (.inr ⟨rfl, h3⟩)
  refine ⟨⟨fun i j hh => hE.declared _ bs _ bs i j (.inl ⟨rfl, hh⟩), fun i j hh => hE.declared _ b0 _ bs i j (.inr ⟨_, rfl, hh⟩),
    sTD, fun i j hh => hE.declared _ bo _ bs i j (.inr ⟨_, rfl, hh⟩), sOS, sOD,
    fun i j k h1 h2 h3 => hE.closed _ bs _ bs _ bs _ _ _ h1 h2 (.inr ⟨rfl, h3⟩),
    fun i j k h1 h2 => hE.closed _ b0 _ bs _ bs _ _ _ h1 h2 (low r0 _ _),
    fun i j k h1 h2 h3 => hE.closed _ b0 _ b0 _ bs _ _ _ h1 h2 (.inr ⟨rfl, h3⟩), dTD,
    fun i j k h1 h2 => hE.closed _ bo _ bs _ bs _ _ _ h1 h2 (low r1 _ _),
    fun i j k h1 h2 => hE.closed _ bo _ b0 _ bs _ _ _ h1 h2 (low r3 _ _), oTD,
    fun i j k h1 h2 h3 => hE.closed _ bo _ bo _ bs _ _ _ h1 h2 (.inr ⟨rfl, h3⟩), oOD, dOD⟩,
    ⟨sTD, fun i j hh => hE.declared _ b1 _ b0 i j (.inr ⟨_, by
        have e : s.lowerBlock N (.tridiag 1) (.tridiag 0) = some s.tridiag.subdiag := if_pos ⟨rfl, hN⟩
        beta_reduce
        rw [e]; rfl, hh⟩), sOS, dTD,
    fun i j k h1 h2 => hE.closed _ b1 _ b0 _ b0 _ _ _ h1 h2 (low r2 _ _),
    fun i j k h1 h2 h3 => hU.diag 1 hN 0 (Nat.zero_le N) _ _ (hE.closed _ b1 _ b1 _ b0 _ _ _ h1 h2 (.inr ⟨rfl, h3⟩)), oTD,
    fun i j k h1 h2 => hU.outer 1 hN 0 (Nat.zero_le N) _ _ (hE.closed _ bo _ b1 _ b0 _ _ _ h1 h2 (low r4 _ _))⟩,
    ⟨sTD, fun i j hh => hE.declared _ bl _ bN i j (.inr ⟨_, by
        simp only [ArrowheadSparsity.lowerBlock, if_pos, Option.map_some]; rfl, hh⟩),
    fun i j hh => hE.declared _ bl _ bl i j (.inl ⟨rfl, hh⟩), sOS, fun i j hh => hE.declared _ bo _ bl i j (.inr ⟨_, rfl, hh⟩), sOD,
    dTD, fun i j k h1 h2 => hE.closed _ bl _ bN _ bN _ _ _ h1 (hU.diag 0 (Nat.zero_le N) N le_rfl _ _ h2) (low r5 _ _),
    fun i j k h1 h2 h3 => hE.closed _ bl _ bl _ bN _ _ _ h1 h2 (.inr ⟨rfl, h3⟩),
    fun i j k h1 h2 h3 => hE.closed _ bl _ bl _ bl _ _ _ h1 h2 (.inr ⟨rfl, h3⟩), oTD,
    fun i j k h1 h2 => hE.closed _ bo _ bl _ bN _ _ _ (hU.outer 0 (Nat.zero_le N) N le_rfl _ _ h1) h2 (low r6 _ _),
    fun i j k h1 h2 => hE.closed _ bo _ bl _ bl _ _ _ h1 h2 (low r6 _ _), oOD,
    fun i j k h1 h2 h3 => hE.closed _ bo _ bo _ bl _ _ _ h1 h2 (.inr ⟨rfl, h3⟩), dOD⟩⟩

/-- C86: the pattern of the factor is the same for all repetitions, has the entries of the matrix and is closed under
elimination. If there is at least one repetition, then every such pattern contains the pattern of the factor. -/
theorem C86_least (s : ArrowheadSparsity) (d : Dims) (hs : s.Valid d) (T : ArrowheadTypes) (hT : arrowheadTypes s = .ok T)
    (N : Nat) : UniformPattern N (T.Has N) ∧ EliminationPattern s N (T.Has N) ∧
      (1 ≤ N → ∀ U, UniformPattern N U → EliminationPattern s N U →
        ∀ a ∈ blocks N, ∀ b ∈ blocks N, ∀ i j, T.Has N a i b j → U a i b j) := by
  obtain ⟨-, h2, h3⟩ := C21_pattern s d hs T hT N
  refine ⟨⟨?_, ?_, ?_⟩, ⟨fun a _ b _ i j => h2 a i b j, fun a _ b _ c _ i j k => h3 a i b j c k⟩, ?_⟩
  · rintro t ht u hu i j (⟨-, h⟩ | ⟨G, hG, -⟩)
    · exact .inl ⟨rfl, h⟩
    · rcases t with _ | t
      · simp [ArrowheadTypes.lowerBlock] at hG
      · have e : T.lowerBlock N (.tridiag (t + 1)) (.tridiag (t + 1)) = none := if_neg (by omega)
        beta_reduce at hG
        rw [e] at hG
        cases hG
  · rintro t ht u hu i j (⟨h, -⟩ | ⟨G, hG, h⟩)
    · injection h
      omega
    · have e : ∀ t < N, T.lowerBlock N (.tridiag (t + 1)) (.tridiag t) = some T.tridiagSubdiag := fun t ht => if_pos ⟨rfl, ht⟩
      beta_reduce at hG
      rw [e t ht, ← e u hu] at hG
      exact .inr ⟨G, hG, h⟩
  · rintro t ht u hu i j (⟨h, -⟩ | ⟨G, hG, h⟩)
    · cases h
    · have e : ∀ t ≤ N, T.lowerBlock N .outer (.tridiag t) = some T.outerSubdiag := fun t ht => if_pos ht
      beta_reduce at hG
      rw [e t ht, ← e u hu] at hG
      exact .inr ⟨G, hG, h⟩
  · intro hN U hU hE a ha b hb i j h
    obtain ⟨T', h4, h5⟩ := arrowheadTypes_least hs
    obtain rfl : T = T' := Except.ok.inj (hT.symm.trans h4)
    obtain ⟨l1, l2, l3, l4, l5, l6, l7, l8, l9, l10⟩ := h5 _ _ _ _ _ _ _ _ _ _ (closedTypes hN hU hE)
    rcases h with ⟨rfl, h⟩ | ⟨G, hG, h⟩
    · cases a with
      | start => exact l1 i j h
      | tridiag t => exact hU.diag 0 (Nat.zero_le N) t (Nat.le_of_lt_succ (mem_blocks.mp ha t rfl)) _ _ (l4 i j h)
      | link => exact l7 i j h
      | outer => exact l10 i j h
    · rcases a with _ | (_ | t) | _ | _ <;> rcases b with _ | u | _ | _ <;>
        simp only [ArrowheadTypes.lowerBlock, Option.map_none, Option.map_some, reduceCtorEq, Option.some.injEq] at hG
      · subst hG
        exact l2 i j h
      · split at hG
        · rename_i htu
          obtain ⟨rfl, htN⟩ := htu
          simp only [Option.map_some, Option.some.injEq] at hG
          subst hG
          exact hU.subdiag 0 hN u htN _ _ (l5 i j h)
        · cases hG
      · split at hG
        · rename_i hu
          subst hu
          simp only [Option.map_some, Option.some.injEq] at hG
          subst hG
          exact l6 i j h
        · cases hG
      · subst hG
        exact l3 i j h
      · split at hG
        · rename_i hu
          simp only [Option.map_some, Option.some.injEq] at hG
          subst hG
          exact hU.outer 0 (Nat.zero_le N) u hu _ _ (l9 i j h)
        · cases hG
      · subst hG
        exact l8 i j h

private theorem lower_mono {p q : Sparsity} {w : List Nat} (hsize : q.numRows = p.numRows) (h : ∀ i j, p.Has i j → q.Has i j)
    (i j : Nat) (hh : LowerPermuted p w i j) : LowerPermuted q w i j :=
  ⟨hh.1, by rw [hsize]; exact hh.2.1, h _ _ hh.2.2⟩

private theorem rect_mono {p q : Sparsity} {w v : List Nat} {r c : Nat} (hp : p.OfDims r c) (hq : q.OfDims r c)
    (h : ∀ i j, p.Has i j → q.Has i j) (i j : Nat) (hh : RectPermuted p w v i j) : RectPermuted q w v i j :=
  ⟨by rw [hq.2.1, ← hp.2.1]; exact hh.1, by rw [hq.2.2, ← hp.2.2]; exact hh.2.1, h _ _ hh.2.2⟩

/-- C86: whoever declares more entries gets a factor with more entries. -/
theorem C86_monotone (s s' : ArrowheadSparsity) (d : Dims) (hs : s.Valid d) (hs' : s'.Valid d) (h : s.Within s')
    (T T' : ArrowheadTypes) (hT : arrowheadTypes s = .ok T) (hT' : arrowheadTypes s' = .ok T') (N : Nat) (a b : Blk) (i j : Nat)
    (hh : T.Has N a i b j) : T'.Has N a i b j := by
  obtain ⟨T0, e1, o⟩ := arrowheadTypes_sat hs'
  obtain rfl : T' = T0 := Except.ok.inj (hT'.symm.trans e1)
  obtain ⟨T0, e2, l⟩ := arrowheadTypes_least hs
  obtain rfl : T = T0 := Except.ok.inj (hT.symm.trans e2)
  have p1 : s'.start.permutation = s.start.permutation := h.perm .start
  have p2 : s'.tridiag.permutation = s.tridiag.permutation := h.perm (.tridiag 0)
  have p3 : s'.link.permutation = s.link.permutation := h.perm .link
  have p4 : s'.outer.permutation = s.outer.permutation := h.perm .outer
  have o1 := o.sStartDiag
  have o2 := o.sStartNext
  have o3 := o.sStartOuter
  have o4 := o.sTridiagDiag
  have o5 := o.sTridiagSubdiag
  have o6 := o.sLinkPrev
  have o7 := o.sLinkDiag
  have o8 := o.sLinkNext
  have o9 := o.sOuterSubdiag
  have o10 := o.sOuterDiag
  simp only [p1, p2, p3, p4] at o1 o2 o3 o4 o5 o6 o7 o8 o9 o10
  have sTD := fun i j hh => o4 i j (lower_mono (hs'.tridiagDiag.2.1.trans hs.tridiagDiag.2.1.symm) (h.diag (.tridiag 0)) i j hh)
  have sOS := fun i j hh => o9 i j (rect_mono hs.outerSubdiag hs'.outerSubdiag h.outerSubdiag i j hh)
  have sOD := fun i j hh => o10 i j (lower_mono (hs'.outerDiag.2.1.trans hs.outerDiag.2.1.symm) (h.diag .outer) i j hh)
  obtain ⟨l1, l2, l3, l4, l5, l6, l7, l8, l9, l10⟩ := l T'.startDiag.Has T'.startNext.Has T'.startOuter.Has T'.tridiagDiag.Has
    T'.tridiagSubdiag.Has T'.linkPrev.Has T'.linkDiag.Has T'.linkNext.Has T'.outerSubdiag.Has T'.outerDiag.Has
    ⟨⟨fun i j hh => o1 i j (lower_mono (hs'.startDiag.2.1.trans hs.startDiag.2.1.symm) (h.diag .start) i j hh),
      fun i j hh => o2 i j (rect_mono hs.startNext hs'.startNext h.startNext i j hh), sTD,
      fun i j hh => o3 i j (rect_mono hs.startOuter hs'.startOuter h.startOuter i j hh), sOS, sOD,
      o.cStart.1, o.cStart.2, o.cStart.3, o.cStart.4, o.oStart1, o.oStart2, o.oTridiag1, o.oStart3, o.oTridiag3, o.cOuter.4⟩,
    ⟨sTD, fun i j hh => o5 i j (rect_mono hs.tridiagSubdiag hs'.tridiagSubdiag h.tridiagSubdiag i j hh), sOS, o.cTridiag.1,
      o.cTridiag.2, o.cTridiag.3, o.oTridiag1, o.oTridiag2⟩,
    ⟨sTD, fun i j hh => o6 i j (rect_mono hs.linkPrev hs'.linkPrev h.linkPrev i j hh),
      fun i j hh => o7 i j (lower_mono (hs'.linkDiag.2.1.trans hs.linkDiag.2.1.symm) (h.diag .link) i j hh), sOS,
      fun i j hh => o8 i j (rect_mono hs.linkNext hs'.linkNext h.linkNext i j hh), sOD, o.cLink.1, o.cLink.2, o.cLink.3,
      o.cLink.4, o.oTridiag1, o.oLink2, o.cOuter.2, o.oTridiag3, o.cOuter.3, o.cOuter.4⟩⟩
  rcases hh with ⟨rfl, hh⟩ | ⟨G, hG, hh⟩
  · refine .inl ⟨rfl, ?_⟩
    cases a with
    | start => exact l1 i j hh
    | tridiag t => exact l4 i j hh
    | link => exact l7 i j hh
    | outer => exact l10 i j hh
  · refine .inr ?_
    rcases a with _ | (_ | t) | _ | _ <;> rcases b with _ | u | _ | _ <;>
      simp only [ArrowheadTypes.lowerBlock, Option.map_none, Option.map_some, reduceCtorEq, Option.some.injEq] at hG ⊢
    · subst hG
      exact ⟨_, rfl, l2 i j hh⟩
    · split at hG
      · rename_i htu
        simp only [Option.map_some, Option.some.injEq] at hG
        subst hG
        exact ⟨_, by rw [if_pos htu]; rfl, l5 i j hh⟩
      · cases hG
    · split at hG
      · rename_i hu
        simp only [Option.map_some, Option.some.injEq] at hG
        subst hG
        exact ⟨_, by rw [if_pos hu]; rfl, l6 i j hh⟩
      · cases hG
    · subst hG
      exact ⟨_, rfl, l3 i j hh⟩
    · split at hG
      · rename_i hu
        simp only [Option.map_some, Option.some.injEq] at hG
        subst hG
        exact ⟨_, by rw [if_pos hu]; rfl, l9 i j hh⟩
      · cases hG
    · subst hG
      exact ⟨_, rfl, l8 i j hh⟩

/-- The hypotheses of `C86_least` are met: by the pattern of the factor of the matrix of C29 itself, and by the one with all
entries below the diagonal, which is larger. -/
example : ∃ T, arrowheadTypes arrowS = .ok T ∧ UniformPattern 1 (T.Has 1) ∧ EliminationPattern arrowS 1 (T.Has 1) ∧
    UniformPattern 1 (fun a i b j => Before 1 b j a i) ∧ EliminationPattern arrowS 1 (fun a i b j => Before 1 b j a i) ∧
    Before 1 .start 0 (.tridiag 0) 0 ∧ ¬ T.Has 1 (.tridiag 0) 0 .start 0 := by
  obtain ⟨T, hT⟩ := C21_instantiable arrowS arrowD arrowS_valid
  obtain ⟨h1, h2, -⟩ := C86_least arrowS arrowD arrowS_valid T hT 1
  obtain ⟨h3, h4, -⟩ := C21_pattern arrowS arrowD arrowS_valid T hT 1
  refine ⟨T, hT, h1, h2, ⟨?_, ?_, ?_⟩, ⟨fun a _ b _ i j h => (h3 a i b j (h4 a i b j h)).1, fun _ _ _ _ _ _ _ _ _ _ _ h => h⟩,
    .inl (by decide), ?_⟩
  · rintro t ht u hu i j (h | ⟨-, h⟩)
    · exact absurd h (Nat.lt_irrefl _)
    · exact .inr ⟨rfl, h⟩
  · intro t ht u hu i j _
    exact .inl (by simp [Blk.rank])
  · intro t ht u hu i j _
    exact .inl (by simp only [Blk.rank]; omega)
  · have h : (arrowheadTypes arrowS).map (fun T => decide (T.startNext.toSparsity.Has 0 0)) = .ok false := by decide +kernel
    rw [hT] at h
    have h := of_decide_eq_false (Except.ok.inj h)
    rintro (⟨hh, -⟩ | ⟨G, hG, hh⟩)
    · cases hh
    · cases hG
      exact h hh

end Ctldl
