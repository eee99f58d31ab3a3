import Verif.Lemmas.AssembledSolve

/-! # The assembled matrix of a repeating block matrix -/

namespace Ctldl

open Finset

section

variable {s : ArrowheadSparsity} {T : ArrowheadTypes} {d : Dims} {N : Nat}

theorem place_lt_iff (T : ArrowheadTypes) {k l : Σ _ : Blk, Nat} (hk : k ∈ positions d N) (hl : l ∈ positions d N) :
    d.place N k < d.place N l ↔ Before N k.1 k.2 l.1 l.2 := by
  have k1 := (mem_positions.mp hk).1
  have l1 := (mem_positions.mp hl).1
  rw [place_eq k1, place_eq l1, (chainOff_offsets T d N).lt_iff (chainPos_mem hk) (chainPos_mem hl)]
  unfold Before chainPos
  dsimp only
  rw [rank_inj k1 l1]

theorem place_inj (T : ArrowheadTypes) {k l : Σ _ : Blk, Nat} (hk : k ∈ positions d N) (hl : l ∈ positions d N)
    (h : d.place N k = d.place N l) : k = l := by
  have h1 : ¬ Before N k.1 k.2 l.1 l.2 := fun h' => by
    have := (place_lt_iff T hk hl).mpr h'
    omega
  have h2 : ¬ Before N l.1 l.2 k.1 k.2 := fun h' => by
    have := (place_lt_iff T hl hk).mpr h'
    omega
  unfold Before at h1 h2
  have k1 := (mem_positions.mp hk).1
  have l1 := (mem_positions.mp hl).1
  have h3 : k.1 = l.1 := (rank_inj k1 l1).mp (by omega)
  obtain ⟨a, i⟩ := k
  obtain ⟨b, j⟩ := l
  dsimp only at h3
  subst h3
  have h4 : ¬ i < j := fun h => h1 (Or.inr ⟨rfl, h⟩)
  have h5 : ¬ j < i := fun h => h2 (Or.inr ⟨rfl, h⟩)
  obtain rfl : i = j := by omega
  rfl

/-- All places of a square matrix of dimension `n` with the given property. -/
noncomputable def placesWhere (n : Nat) (p : Nat → Nat → Prop) : List Entry :=
  open Classical in
  ((List.range n).flatMap fun r => (List.range n).map fun c => (⟨r, c⟩ : Entry)).filter fun e => p e.row e.col

theorem mem_placesWhere {n : Nat} {p : Nat → Nat → Prop} {e : Entry} :
    e ∈ placesWhere n p ↔ e.row < n ∧ e.col < n ∧ p e.row e.col := by
  unfold placesWhere
  classical
  rw [List.mem_filter, decide_eq_true_eq, List.mem_flatMap]
  obtain ⟨r, c⟩ := e
  simp only [List.mem_map, List.mem_range, Entry.mk.injEq]
  constructor
  · rintro ⟨⟨r', h1, c', h2, rfl, rfl⟩, h3⟩
    exact ⟨h1, h2, h3⟩
  · rintro ⟨h1, h2, h3⟩
    exact ⟨⟨r, h1, c, h2, rfl, rfl⟩, h3⟩

/-- The place is one of an entry of the factors of the blocks, before the permutation. -/
def FactorPlace (s : ArrowheadSparsity) (T : ArrowheadTypes) (d : Dims) (N r c : Nat) : Prop :=
  ∃ k ∈ positions d N, ∃ l ∈ positions d N, T.Has N k.1 k.2 l.1 l.2 ∧
    r = max (d.place N (s.permPos k)) (d.place N (s.permPos l)) ∧
    c = min (d.place N (s.permPos k)) (d.place N (s.permPos l))

theorem factorPlace_iff (hs : s.Valid d) (hT : TypesOk s T d) {k l : Σ _ : Blk, Nat} (hk : k ∈ positions d N)
    (hl : l ∈ positions d N) (hlt : d.place N l < d.place N k) :
    FactorPlace s T d N (max (d.place N (s.permPos k)) (d.place N (s.permPos l)))
      (min (d.place N (s.permPos k)) (d.place N (s.permPos l))) ↔ T.Has N k.1 k.2 l.1 l.2 := by
  obtain ⟨p1, p2, -⟩ := permPos_facts hs N
  refine ⟨?_, fun h => ⟨k, hk, l, hl, h, rfl, rfl⟩⟩
  rintro ⟨k', hk', l', hl', h, h1, h2⟩
  have hlt' : d.place N l' < d.place N k' := (place_lt_iff T hl' hk').mpr (types_has_before hT h)
  have inj : ∀ {x y}, x ∈ positions d N → y ∈ positions d N → d.place N (s.permPos x) = d.place N (s.permPos y) → x = y :=
    fun hx hy hxy => p2 _ hx _ hy (place_inj T (p1 _ hx) (p1 _ hy) hxy)
  have hcases : (d.place N (s.permPos k) = d.place N (s.permPos k') ∧ d.place N (s.permPos l) = d.place N (s.permPos l')) ∨
      (d.place N (s.permPos k) = d.place N (s.permPos l') ∧ d.place N (s.permPos l) = d.place N (s.permPos k')) := by
    omega
  rcases hcases with ⟨h3, h4⟩ | ⟨h3, h4⟩
  · rw [inj hk hk' h3, inj hl hl' h4]
    exact h
  · rw [inj hk hl' h3, inj hl hk' h4] at hlt
    omega

/-- The order of elimination of the assembled matrix. -/
theorem exists_order (hs : s.Valid d) (T : ArrowheadTypes) (N : Nat) : ∃ P, IsPerm P (d.total N) ∧
    ∀ k ∈ positions d N, permAt P (d.place N k) = d.place N (s.permPos k) := by
  obtain ⟨p1, p2, -⟩ := permPos_facts hs N
  have hex : ∀ r, ∃ k, r < d.total N → k ∈ positions d N ∧ d.place N k = r := fun r => by
    by_cases hr : r < d.total N
    · obtain ⟨k, hk, h⟩ := exists_place hr T
      exact ⟨k, fun _ => ⟨hk, h⟩⟩
    · exact ⟨⟨.start, 0⟩, fun h => absurd h hr⟩
  choose e he using hex
  refine ⟨(List.range (d.total N)).map fun r => d.place N (s.permPos (e r)), ?_, ?_⟩
  · refine isPerm_of_inj (by simp) ?_ ?_
    · intro a ha
      obtain ⟨r, hr, rfl⟩ := List.mem_map.mp ha
      exact place_lt (p1 _ (he r (List.mem_range.mp hr)).1) T
    · refine List.Nodup.map_on ?_ List.nodup_range
      intro r hr r' hr' h
      obtain ⟨h1, h2⟩ := he r (List.mem_range.mp hr)
      obtain ⟨h3, h4⟩ := he r' (List.mem_range.mp hr')
      rw [← h2, ← h4, p2 _ h1 _ h3 (place_inj T (p1 _ h1) (p1 _ h3) h)]
  · intro k hk
    have hlt := place_lt hk T
    obtain ⟨h1, h2⟩ := he _ hlt
    unfold permAt
    rw [List.getD_eq_getElem _ _ (by simpa using hlt)]
    simp only [List.getElem_map, List.getElem_range]
    rw [place_inj T h1 hk h2]

/-- The pattern of the assembled matrix together with all fill-in. -/
theorem exists_pattern (hs : s.Valid d) (hT : TypesOk s T d) (N : Nat) (hsmall : d.total N ≤ noParent) :
    ∃ S P, ValidSparsity S P ∧ S.Assembles P s T d N := by
  obtain ⟨P, hP, ho⟩ := exists_order hs T N
  obtain ⟨p1, -, -⟩ := permPos_facts hs N
  refine ⟨⟨d.total N, d.total N, placesWhere (d.total N) (FactorPlace s T d N)⟩, P, ⟨?_, rfl, hP, hsmall⟩, rfl, ho, ?_⟩
  · intro e he
    obtain ⟨h1, h2, -⟩ := mem_placesWhere.mp he
    exact ⟨h1, h2⟩
  · have hG : ∀ k ∈ positions d N, ∀ l ∈ positions d N,
        LowerPermuted ⟨d.total N, d.total N, placesWhere (d.total N) (FactorPlace s T d N)⟩ P (d.place N k) (d.place N l) ↔
          T.Has N k.1 k.2 l.1 l.2 := by
      intro k hk l hl
      have b1 := place_lt (p1 k hk) T
      have b2 := place_lt (p1 l hl) T
      unfold LowerPermuted Sparsity.Has
      rw [ho k hk, ho l hl, mem_placesWhere]
      dsimp only
      constructor
      · rintro ⟨h1, -, -, -, h2⟩
        exact (factorPlace_iff hs hT hk hl h1).mp h2
      · intro h
        have h1 := (place_lt_iff T hl hk).mpr (types_has_before hT h)
        exact ⟨h1, place_lt hk T, by omega, by omega, (factorPlace_iff hs hT hk hl h1).mpr h⟩
    intro k hk l hl
    constructor
    · intro h
      have key : ∀ i j, Fill (LowerPermuted ⟨d.total N, d.total N, placesWhere (d.total N) (FactorPlace s T d N)⟩ P) i j →
          ∃ k ∈ positions d N, ∃ l ∈ positions d N, d.place N k = i ∧ d.place N l = j ∧ T.Has N k.1 k.2 l.1 l.2 := by
        intro i j h
        induction h with
        | base h1 h2 =>
          obtain ⟨k, hk, rfl⟩ := exists_place (d := d) (N := N) h1.2.1 T
          obtain ⟨l, hl, rfl⟩ := exists_place (d := d) (N := N) (h2.trans h1.2.1) T
          exact ⟨k, hk, l, hl, rfl, rfl, (hG k hk l hl).mp h1⟩
        | step _ _ hlt ih1 ih2 =>
          obtain ⟨k, hk, l, hl, rfl, rfl, h1⟩ := ih1
          obtain ⟨k', hk', l', hl', rfl, h3, h2⟩ := ih2
          obtain rfl := place_inj T hl' hl h3
          exact ⟨k, hk, k', hk', rfl, rfl, types_has_closed hT h1 h2 ((place_lt_iff T hk' hk).mp hlt)⟩
      obtain ⟨k', hk', l', hl', h1, h2, h3⟩ := key _ _ h
      rwa [place_inj T hk' hk h1, place_inj T hl' hl h2] at h3
    · exact fun h => Fill.base ((hG k hk l hl).mpr h) ((place_lt_iff T hl hk).mpr (types_has_before hT h))

end

section

variable {K : Type} [Zero K] {s : ArrowheadSparsity} {T : ArrowheadTypes} {d : Dims} {N : Nat} {S : Sparsity} {P : List Nat}

/-- The assembled matrix. -/
theorem exists_matrix (hs : s.Valid d) (hT : TypesOk s T d) {m : ArrowheadMatrix K} (hm : m.Fits s T d N)
    (hA : S.Assembles P s T d N) : ∃ M : MatIn K, M.Fits S P ∧ M.Assembles m d N := by
  obtain ⟨p1, p2, p3⟩ := permPos_facts hs N
  have hex : ∀ r, ∃ k, r < d.total N → k ∈ positions d N ∧ d.place N k = r := fun r => by
    by_cases hr : r < d.total N
    · obtain ⟨k, hk, h⟩ := exists_place hr T
      exact ⟨k, fun _ => ⟨hk, h⟩⟩
    · exact ⟨⟨.start, 0⟩, fun h => absurd h hr⟩
  choose e he using hex
  have hA' : ∀ k ∈ positions d N, ∀ l ∈ positions d N, m.assembled N (s.permPos k) (s.permPos l) =
      posA (N + 2) (m.chainInput s N) (chainPos N k) (chainPos N l) := fun k hk l hl =>
    matrix_symElement_eq hm.numSubdiag hm.numOuter (mem_positions.mp hk).1 (mem_positions.mp hl).1 k.2 l.2
  have hsymm : ∀ k ∈ positions d N, ∀ l ∈ positions d N, m.assembled N k l = m.assembled N l k := by
    intro k hk l hl
    obtain ⟨k, hk', rfl⟩ := p3 k hk
    obtain ⟨l, hl', rfl⟩ := p3 l hl
    rw [hA' k hk' l hl', hA' l hl' k hk', posA_symm]
  obtain ⟨B, hB⟩ : ∃ B, ∀ p ≤ N + 2 + 1, chainN (chainPat T d N) (N + 2) p ≤ B :=
    ⟨∑ p ∈ range (N + 4), chainN (chainPat T d N) (N + 2) p, fun p hp =>
      single_le_sum (f := fun p => chainN (chainPat T d N) (N + 2) p) (fun _ _ => Nat.zero_le _)
        (mem_range.mpr (by omega))⟩
  have hzero : ∀ k ∈ positions d N, ∀ l ∈ positions d N, d.place N l < d.place N k → ¬ T.Has N k.1 k.2 l.1 l.2 →
      m.assembled N (s.permPos k) (s.permPos l) = 0 := by
    intro k hk l hl hlt h
    rw [hA' k hk l hl]
    refine posA_zero hm.zero hB (chainPos_mem hk) (chainPos_mem hl) ?_
      (fun h' => h ((posHas_chainPos (mem_positions.mp hk).1 (mem_positions.mp hl).1).mp h'))
    have hb := (place_lt_iff T hl hk).mp hlt
    have h1 := mem_chainPositions.mp (chainPos_mem (T := T) hl)
    have h2 := hB _ (by omega : (chainPos N l).1 ≤ N + 2 + 1)
    have h3 : (chainPos N l).2 < B := lt_of_lt_of_le h1.2 h2
    unfold chainRk chainPos at *
    unfold Before at hb
    dsimp only at h3 ⊢
    rcases hb with hb | ⟨hb, hb'⟩
    · have := Nat.mul_le_mul_right B (show l.1.rank N + 1 ≤ k.1.rank N by omega)
      rw [Nat.add_mul] at this
      omega
    · rw [hb]
      omega
  let p : Nat → Nat → Prop := fun r c => r = c ∨ FactorPlace s T d N r c
  let φ : Entry → K := fun x => m.assembled N (e x.row) (e x.col)
  have helem : ∀ r < d.total N, ∀ c < d.total N, (p r c ∧
      (⟨⟨d.total N, d.total N, placesWhere (d.total N) p⟩, (placesWhere (d.total N) p).map φ⟩ : MatIn K).elem r c = φ ⟨r, c⟩) ∨
      (¬ p r c ∧
      (⟨⟨d.total N, d.total N, placesWhere (d.total N) p⟩, (placesWhere (d.total N) p).map φ⟩ : MatIn K).elem r c = 0) := by
    intro r hr c hc
    unfold MatIn.elem
    by_cases h : p r c
    · have hmem : (⟨r, c⟩ : Entry) ∈ placesWhere (d.total N) p := mem_placesWhere.mpr ⟨hr, hc, h⟩
      refine Or.inl ⟨h, ?_⟩
      rw [if_pos (show (⟨d.total N, d.total N, placesWhere (d.total N) p⟩ : Sparsity).Has r c from hmem)]
      dsimp only
      rw [List.getD_eq_getElem _ _ (by simpa using List.idxOf_lt_length_of_mem hmem), List.getElem_map,
        List.getElem_idxOf]
    · exact Or.inr ⟨h, if_neg fun hmem => h (mem_placesWhere.mp hmem).2.2⟩
  refine ⟨⟨⟨d.total N, d.total N, placesWhere (d.total N) p⟩, (placesWhere (d.total N) p).map φ⟩,
    ⟨?_, ?_, hA.size.symm, hA.size.symm, ?_⟩, ?_⟩
  · simp [MatIn.Sized]
  · intro x hx
    obtain ⟨h1, h2, -⟩ := mem_placesWhere.mp hx
    exact ⟨h1, h2⟩
  · rintro i j ⟨h1, h2, h3⟩
    dsimp only at h2
    obtain ⟨k, hk, rfl⟩ := exists_place (d := d) (N := N) h2 T
    obtain ⟨l, hl, rfl⟩ := exists_place (d := d) (N := N) (h1.trans h2) T
    refine (hA.pattern k hk l hl).mpr ?_
    have h4 := (mem_placesWhere.mp h3).2.2
    dsimp only at h4
    have o1 : permAt P (d.place N k) = d.place N (s.permPos k) := hA.order k hk
    have o2 : permAt P (d.place N l) = d.place N (s.permPos l) := hA.order l hl
    rw [o1, o2] at h4
    rcases h4 with h4 | h4
    · have := p2 _ hk _ hl (place_inj T (p1 k hk) (p1 l hl) (by omega))
      rw [this] at h1
      omega
    · exact (factorPlace_iff hs hT hk hl h1).mp h4
  · have main : ∀ k ∈ positions d N, ∀ l ∈ positions d N, d.place N l ≤ d.place N k →
        (⟨⟨d.total N, d.total N, placesWhere (d.total N) p⟩, (placesWhere (d.total N) p).map φ⟩ : MatIn K).elem
          (d.place N k) (d.place N l) = m.assembled N k l := by
      intro k hk l hl hle
      have hφ : φ ⟨d.place N k, d.place N l⟩ = m.assembled N k l := by
        obtain ⟨h1, h2⟩ := he _ (place_lt hk T)
        obtain ⟨h3, h4⟩ := he _ (place_lt hl T)
        show m.assembled N (e _) (e _) = _
        rw [place_inj T h1 hk h2, place_inj T h3 hl h4]
      rcases helem _ (place_lt hk T) _ (place_lt hl T) with ⟨-, h⟩ | ⟨h0, h⟩
      · rw [h, hφ]
      · rw [h]
        have hne : d.place N l < d.place N k := by
          rcases Nat.lt_or_eq_of_le hle with h' | h'
          · exact h'
          · exact absurd (Or.inl h'.symm) h0
        have hnF : ¬ FactorPlace s T d N (d.place N k) (d.place N l) := fun h' => h0 (Or.inr h')
        obtain ⟨k, hk', rfl⟩ := p3 k hk
        obtain ⟨l, hl', rfl⟩ := p3 l hl
        rcases Nat.lt_trichotomy (d.place N l) (d.place N k) with h1 | h1 | h1
        · refine (hzero k hk' l hl' h1 fun h' => hnF ?_).symm
          have := (factorPlace_iff hs hT hk' hl' h1).mpr h'
          rwa [max_eq_left hne.le, min_eq_right hne.le] at this
        · rw [place_inj T hl' hk' h1] at hne
          omega
        · rw [hsymm _ hk _ hl]
          refine (hzero l hl' k hk' h1 fun h' => hnF ?_).symm
          have := (factorPlace_iff hs hT hl' hk' h1).mpr h'
          rwa [max_eq_right hne.le, min_eq_left hne.le] at this
    intro k hk l hl
    show MatIn.elem _ _ _ = m.assembled N k l
    rcases Nat.le_total (d.place N l) (d.place N k) with h | h
    · rw [max_eq_left h, min_eq_right h]
      exact main k hk l hl h
    · rw [max_eq_right h, min_eq_left h, hsymm k hk l hl]
      exact main l hl k hk h

end

end Ctldl
