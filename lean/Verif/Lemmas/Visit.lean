import Verif.Lemmas.EliminationTreeBlocked

/-! # Visiting row subtrees: helper lemmas -/

namespace Ctldl

/-- `k` is reached from `j` by following `next` without passing a node that satisfies `stop`. -/
inductive Reach (next : Nat → Nat) (stop : Nat → Prop) : Nat → Nat → Prop
  | refl {j : Nat} : ¬ stop j → Reach next stop j j
  | step {j k : Nat} : ¬ stop j → Reach next stop (next j) k → Reach next stop j k

theorem Reach.closed {next : Nat → Nat} {stop V : Nat → Prop} (hV : ∀ m, V m → ¬ stop m → V (next m))
    {j k : Nat} (h : Reach next stop j k) (hj : V j) : V k := by
  induction h with
  | refl _ => exact hj
  | step hs _ ih => exact ih (hV _ hj hs)

theorem Reach.start {next : Nat → Nat} {stop : Nat → Prop} {j k : Nat} (h : Reach next stop j k) : ¬ stop j := by
  cases h with
  | refl h => exact h
  | step h _ => exact h

/-- Nodes marked for row `i`. -/
def Marked (visitor : List Nat) (i m : Nat) : Prop := visitor[m]? = some i

theorem countP_set {l : List Nat} {i j : Nat} (hj : j < l.length) (hne : l[j] ≠ i) :
    (l.set j i).countP (fun x => x ≠ i) < l.countP (fun x => x ≠ i) := by
  induction l generalizing j with
  | nil => simp at hj
  | cons a l ih =>
    cases j with
    | zero =>
      simp only [List.getElem_cons_zero] at hne
      simp [hne]
    | succ j =>
      simp only [List.getElem_cons_succ] at hne
      simp only [List.length_cons] at hj
      simp only [List.set_cons_succ, List.countP_cons]
      have := ih (by omega) hne
      omega

theorem visitLoop_sat {getP : Nat → Res Nat} {next : Nat → Nat} {stop Live : Nat → Prop} {i n : Nat}
    (hlive : ∀ m, Live m → m < n)
    (hnext : ∀ m, Live m → ¬ stop m → getP m = .ok (next m) ∧ Live (next m)) :
    ∀ fuel (visitor : List Nat) (calls : List Entry) j, visitor.countP (fun x => x ≠ i) < fuel →
      visitor.length = n → Live j → (∀ m, m < n → stop m → Marked visitor i m) →
      (∀ m, Marked visitor i m → ¬ stop m → Marked visitor i (next m) ∨ next m = j) →
      Sat (visitLoop getP i fuel visitor calls j) (fun st => ∃ l : List Nat,
        st.1.length = n ∧ st.2 = calls ++ l.map (fun k => (⟨i, k⟩ : Entry)) ∧ l.Nodup ∧
        (∀ m, m ∈ l → ¬ Marked visitor i m ∧ Reach next stop j m ∧ m < n) ∧
        (∀ m, Marked st.1 i m ↔ Marked visitor i m ∨ m ∈ l) ∧
        (∀ m, m ∉ l → st.1[m]? = visitor[m]?) ∧
        Marked st.1 i j ∧
        (∀ m, Marked st.1 i m → ¬ stop m → Marked st.1 i (next m))) := by
  intro fuel
  induction fuel with
  | zero => intro visitor calls j hf; omega
  | succ fuel ih =>
    intro visitor calls j hf hlen hj hstop hclosed
    have hjn := hlive j hj
    unfold visitLoop
    rw [rd_ok (by omega), ok_bind]
    split
    · next hne =>
      have hnm : ¬ Marked visitor i j := by
        unfold Marked
        rw [List.getElem?_eq_getElem (by omega)]
        simpa using hne
      have hns : ¬ stop j := fun h => hnm (hstop j hjn h)
      obtain ⟨h1, h2⟩ := hnext j hj hns
      simp only
      rw [wr_ok (by omega), ok_bind, h1, ok_bind]
      have hmark : ∀ m, Marked (visitor.set j i) i m ↔ Marked visitor i m ∨ m = j := by
        intro m
        unfold Marked
        rw [List.getElem?_set]
        by_cases hm : j = m
        · subst hm; simp [show j < visitor.length by omega]
        · simp [hm, Ne.symm hm]
      refine Sat.mono (ih _ _ _ (by have := countP_set (l := visitor) (i := i) (j := j) (by omega) hne; omega)
        (by simp [hlen]) h2 ?_ ?_) ?_
      · intro m hm hs
        exact (hmark m).mpr (Or.inl (hstop m hm hs))
      · intro m hm hs
        rcases (hmark m).mp hm with h3 | rfl
        · rcases hclosed m h3 hs with h4 | h4
          · exact Or.inl ((hmark _).mpr (Or.inl h4))
          · exact Or.inl ((hmark _).mpr (Or.inr h4))
        · exact Or.inr rfl
      · rintro st ⟨l, h3, h4, h5, h6, h7, h7', h8, h9⟩
        have hjl : j ∉ l := fun h => (h6 j h).1 ((hmark j).mpr (Or.inr rfl))
        refine ⟨j :: l, h3, ?_, ?_, ?_, ?_, ?_, ?_, h9⟩
        · rw [h4]; simp
        · rw [List.nodup_cons]; exact ⟨hjl, h5⟩
        · intro m hm
          rcases List.mem_cons.mp hm with rfl | hm
          · exact ⟨hnm, .refl hns, hjn⟩
          · obtain ⟨h10, h11, h12⟩ := h6 m hm
            exact ⟨fun h => h10 ((hmark m).mpr (Or.inl h)), .step hns h11, h12⟩
        · intro m
          rw [h7, hmark, List.mem_cons, or_assoc]
        · intro m hm
          rw [List.mem_cons, not_or] at hm
          rw [h7' m hm.2, List.getElem?_set_ne (Ne.symm hm.1)]
        · exact (h7 j).mpr (Or.inl ((hmark j).mpr (Or.inr rfl)))
    · next heq =>
      have hm : Marked visitor i j := by
        unfold Marked
        rw [List.getElem?_eq_getElem (by omega)]
        simpa using heq
      refine Sat.pure ⟨[], hlen, by simp, by simp, by simp, by simp, by simp, hm, ?_⟩
      intro m h1 h2
      rcases hclosed m h1 h2 with h3 | h3
      · exact h3
      · rw [h3]; exact hm

/-- State while visiting row `i`: the calls so far are `calls0` (earlier rows) followed by calls for row `i` with
exactly the columns in `S`. -/
structure RowState (n i : Nat) (next : Nat → Nat) (stop : Nat → Prop) (visitor0 : List Nat)
    (calls0 : List Entry) (S : Nat → Prop) (st : List Nat × List Entry) : Prop where
  length : st.1.length = n
  calls : ∃ l : List Nat, st.2 = calls0 ++ l.map (fun k => (⟨i, k⟩ : Entry)) ∧ l.Nodup ∧
    (∀ m, m ∈ l ↔ S m ∧ ¬ stop m) ∧ (∀ m ∈ l, m < n) ∧ (∀ m, m ∉ l → st.1[m]? = visitor0[m]?)
  marked : ∀ m, m < n → (Marked st.1 i m ↔ S m ∨ stop m)
  closed : ∀ m, Marked st.1 i m → ¬ stop m → Marked st.1 i (next m)

theorem visitRow_sat {c : Csr} (hc : c.Ok) {getP : Nat → Res Nat} {next : Nat → Nat} {stop Live : Nat → Prop}
    {r ro co n : Nat} (hr : r < c.numRows) (hlive : ∀ m, Live m → m < n)
    (hnext : ∀ m, Live m → ¬ stop m → getP m = .ok (next m) ∧ Live (next m))
    (hent : ∀ j, c.toSparsity.Has r j → Live (j + co)) {visitor0 : List Nat} {calls0 : List Entry}
    {S : Nat → Prop} {st : List Nat × List Entry}
    (h : RowState n (r + ro) next stop visitor0 calls0 S st) :
    Sat (foreachAncestorInSubtreeImpl c getP r st ro co)
      (RowState n (r + ro) next stop visitor0 calls0
        (fun m => S m ∨ ∃ j, c.toSparsity.Has r j ∧ Reach next stop (j + co) m)) := by
  unfold foreachAncestorInSubtreeImpl
  rw [hc.rowView_eq hr, ok_bind]
  refine Sat.mono (foldlM_inv (fun (pre : List Entry) st => RowState n (r + ro) next stop visitor0 calls0
    (fun m => S m ∨ ∃ e ∈ pre, Reach next stop (e.col + co) m) st) ?_ ?_) ?_
  · refine ⟨h.length, ?_, ?_, h.closed⟩
    · simpa using h.calls
    · simpa using h.marked
  · rintro pre e suf st' hl h'
    have he : e ∈ rowOf c.entries r := by rw [hl]; simp
    have he' := mem_rowOf.mp he
    have hhas : c.toSparsity.Has r e.col := by
      unfold Sparsity.Has; rw [← he'.2]; exact he'.1
    have hlj := hent _ hhas
    refine Sat.mono (visitLoop_sat hlive hnext (st'.1.length + 1) st'.1 st'.2 (e.col + co) ?_ h'.length hlj ?_ ?_) ?_
    · have := List.countP_le_length (p := fun x => decide (x ≠ r + ro)) (l := st'.1); omega
    · intro m hm hs; exact (h'.marked m hm).mpr (Or.inr hs)
    · intro m hm hs; exact Or.inl (h'.closed m hm hs)
    · rintro st'' ⟨l, h1, h2, h3, h4, h5, h5', h6, h7⟩
      obtain ⟨l0, g1, g2, g3, g4, g5⟩ := h'.calls
      have hS : ∀ m, m < n → ((S m ∨ ∃ e' ∈ pre ++ [e], Reach next stop (e'.col + co) m) ∨ stop m ↔
          Marked st''.1 (r + ro) m) := by
        intro m hm
        rw [h5 m, h'.marked m hm]
        constructor
        · rintro ((hs | ⟨x, hx, hrx⟩) | hs)
          · exact Or.inl (Or.inl (Or.inl hs))
          · rcases List.mem_append.mp hx with hx | hx
            · exact Or.inl (Or.inl (Or.inr ⟨x, hx, hrx⟩))
            · simp only [List.mem_singleton] at hx
              subst hx
              have := hrx.closed h7 h6
              rw [h5 m, h'.marked m hm] at this
              exact this
          · exact Or.inl (Or.inr hs)
        · rintro (((hs | ⟨x, hx, hrx⟩) | hs) | hml)
          · exact Or.inl (Or.inl hs)
          · exact Or.inl (Or.inr ⟨x, by simp [hx], hrx⟩)
          · exact Or.inr hs
          · exact Or.inl (Or.inr ⟨e, by simp, (h4 m hml).2.1⟩)
      refine ⟨h1, ⟨l0 ++ l, ?_, ?_, ?_, ?_, ?_⟩, fun m hm => (hS m hm).symm, h7⟩
      · rw [h2, g1]; simp
      · rw [List.nodup_append]
        refine ⟨g2, h3, ?_⟩
        rintro a ha b hb rfl
        have := (h4 a hb).1
        apply this
        exact (h'.marked a (g4 a ha)).mpr (Or.inl ((g3 a).mp ha).1)
      · intro m
        rw [List.mem_append, g3 m]
        constructor
        · rintro (⟨hs | ⟨x, hx, hrx⟩, hns⟩ | hml)
          · exact ⟨Or.inl hs, hns⟩
          · exact ⟨Or.inr ⟨x, by simp [hx], hrx⟩, hns⟩
          · refine ⟨Or.inr ⟨e, by simp, (h4 m hml).2.1⟩, fun hs => (h4 m hml).1 ?_⟩
            exact (h'.marked m (h4 m hml).2.2).mpr (Or.inr hs)
        · rintro ⟨hs | ⟨x, hx, hrx⟩, hns⟩
          · exact Or.inl ⟨Or.inl hs, hns⟩
          · rcases List.mem_append.mp hx with hx | hx
            · exact Or.inl ⟨Or.inr ⟨x, hx, hrx⟩, hns⟩
            · simp only [List.mem_singleton] at hx
              subst hx
              have hmk := hrx.closed h7 h6
              have hmn : m < n := by
                have := (List.getElem?_eq_some_iff.mp hmk).1
                omega
              rw [h5 m, h'.marked m hmn] at hmk
              rcases hmk with (hs | hs) | hs
              · exact Or.inl ⟨hs, hns⟩
              · exact absurd hs hns
              · exact Or.inr hs
      · intro m hm
        rcases List.mem_append.mp hm with hm | hm
        · exact g4 m hm
        · exact (h4 m hm).2.2
      · intro m hm
        rw [List.mem_append, not_or] at hm
        rw [h5' m hm.2, g5 m hm.1]
  · intro st' h'
    have hS : (fun m => S m ∨ ∃ e ∈ rowOf c.entries r, Reach next stop (e.col + co) m) =
        (fun m => S m ∨ ∃ j, c.toSparsity.Has r j ∧ Reach next stop (j + co) m) := by
      funext m
      apply propext
      constructor
      · rintro (hs | ⟨e, he, hre⟩)
        · exact Or.inl hs
        · obtain ⟨h1, h2⟩ := mem_rowOf.mp he
          refine Or.inr ⟨e.col, ?_, hre⟩
          unfold Sparsity.Has; rw [← h2]; exact h1
      · rintro (hs | ⟨j, hj, hrj⟩)
        · exact Or.inl hs
        · exact Or.inr ⟨⟨r, j⟩, mem_rowOf.mpr ⟨hj, rfl⟩, hrj⟩
    rw [hS] at h'
    exact h'

end Ctldl
