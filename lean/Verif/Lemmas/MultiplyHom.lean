import Verif.Lemmas.Basic
import Verif.Lemmas.Hom
import Verif.Spec.Oblivious

/-!
# Multiplication and functions between number types

Converting all numbers first is the same as converting them when they are used; functions which respect sums and
products may be applied before or after; properties of the right-hand side which are kept by adding products hold for
the result.
-/

namespace Ctldl

variable {M S K K' : Type}

/-! ## Conversions -/

section

variable [Add K] [Mul K] (castMatrix : M → K) (castSolution : S → K)

theorem multiplyEntryCast_eq (kind : MultiplyKind) (m : MatIn M) (x : List S) (rhs : List K) (t : Nat) :
    multiplyEntryCast castMatrix castSolution kind m x rhs t =
      multiplyEntry kind (m.map castMatrix) (x.map castSolution) rhs t := by
  simp only [multiplyEntryCast, multiplyEntry, MatIn.map, MatIn.valueAt, rd_map, bind_assoc, pure_bind]

theorem multiplyCast_eq (kind : MultiplyKind) (m : MatIn M) (x : List S) (rhs : List K) :
    multiplyCast castMatrix castSolution kind m x rhs =
      multiply kind (m.map castMatrix) (x.map castSolution) rhs := by
  simp only [multiplyCast, multiply]
  exact congrArg (fun f => List.foldlM f rhs _)
    (funext fun rhs => funext fun t => multiplyEntryCast_eq castMatrix castSolution kind m x rhs t)

theorem multiplyIntoCast_eq (kind : MultiplyKind) (m : MatIn M) (x : List S) (rhs : List (List K)) (t : Nat) :
    multiplyIntoCast castMatrix castSolution kind m x rhs t =
      multiplyInto kind (m.map castMatrix) (x.map castSolution) rhs t := by
  simp only [multiplyIntoCast, multiplyInto, multiplyCast_eq]

theorem multiplyRepeatingBlockTridiagonalCast_eq (A B : List (MatIn M)) (x : List (List S)) (rhs : List (List K)) :
    multiplyRepeatingBlockTridiagonalCast castMatrix castSolution A B x rhs =
      multiplyRepeatingBlockTridiagonal (A.map (·.map castMatrix)) (B.map (·.map castMatrix))
        (x.map (·.map castSolution)) rhs := by
  simp only [multiplyRepeatingBlockTridiagonalCast, multiplyRepeatingBlockTridiagonal, multiplyIntoCast_eq, rd_map,
    bind_assoc, pure_bind, List.length_map]

theorem multiplyArrowheadLinkedCast_eq (m : ArrowheadMatrix M) (x : ArrowheadVector S) (rhs : ArrowheadVector K) :
    multiplyArrowheadLinkedCast castMatrix castSolution m x rhs =
      multiplyArrowheadLinked (m.map castMatrix) (x.map castSolution) rhs := by
  simp only [multiplyArrowheadLinkedCast, multiplyArrowheadLinked, multiplyIntoCast_eq, multiplyCast_eq,
    multiplyRepeatingBlockTridiagonalCast_eq, ArrowheadMatrix.map, ArrowheadVector.map, rd_map, bind_assoc, pure_bind,
    List.length_map]

end

/-! ## Functions which respect sums and products -/

section

variable [Add K] [Mul K] [Add K'] [Mul K']

/-- The function respects the operations used for multiplying. -/
structure MulHom' (h : K → K') : Prop where
  add : ∀ a b, h (a + b) = h a + h b
  mul : ∀ a b, h (a * b) = h a * h b

variable {h : K → K'} (hh : MulHom' h)

include hh

theorem multiplyEntry_hom (kind : MultiplyKind) (m : MatIn K) (x rhs : List K) (t : Nat) :
    multiplyEntry kind (m.map h) (x.map h) (rhs.map h) t =
      (do return (← multiplyEntry kind m x rhs t).map h) := by
  cases kind with
  | normal =>
    simp only [multiplyEntry, MultiplyKind.hasNormal, MultiplyKind.hasTransposed, MatIn.valueAt, MatIn.map, if_true,
      rd_map, bind_assoc, pure_bind, ← hh.mul, ← hh.add, wr_map, reduceCtorEq, false_and, if_false, Bool.false_eq_true]
  | transposed =>
    simp only [multiplyEntry, MultiplyKind.hasNormal, MultiplyKind.hasTransposed, MatIn.valueAt, MatIn.map, if_true,
      rd_map, bind_assoc, pure_bind, ← hh.mul, ← hh.add, wr_map, reduceCtorEq, false_and, if_false, Bool.false_eq_true]
  | symmetric =>
    simp only [multiplyEntry, MultiplyKind.hasNormal, MultiplyKind.hasTransposed, MatIn.valueAt, MatIn.map, if_true,
      rd_map, bind_assoc, pure_bind, ← hh.mul, ← hh.add, wr_map, true_and]
    refine bind_congr fun e => bind_congr fun a => bind_congr fun r => bind_congr fun y => bind_congr fun rhs => ?_
    split
    · rfl
    · simp only [rd_map, bind_assoc, pure_bind, ← hh.mul, ← hh.add, wr_map]

theorem multiply_hom (kind : MultiplyKind) (m : MatIn K) (x rhs : List K) :
    multiply kind (m.map h) (x.map h) (rhs.map h) = (do return (← multiply kind m x rhs).map h) :=
  foldlM_hom (List.map h) _ _ (fun rhs t => multiplyEntry_hom hh kind m x rhs t) _ _

theorem multiplyInto_hom (kind : MultiplyKind) (m : MatIn K) (x : List K) (rhs : List (List K)) (t : Nat) :
    multiplyInto kind (m.map h) (x.map h) (rhs.map (List.map h)) t =
      (do return (← multiplyInto kind m x rhs t).map (List.map h)) := by
  unfold multiplyInto
  refine bind_hom (List.map h) (rd_map (List.map h) rhs t) fun r => ?_
  refine bind_hom (List.map h) (multiply_hom hh kind m x r) fun r => ?_
  exact wr_map (List.map h) rhs t r

theorem multiplyRepeatingBlockTridiagonal_hom (A B : List (MatIn K)) (x rhs : List (List K)) :
    multiplyRepeatingBlockTridiagonal (A.map (·.map h)) (B.map (·.map h)) (x.map (List.map h))
      (rhs.map (List.map h)) =
      (do return (← multiplyRepeatingBlockTridiagonal A B x rhs).map (List.map h)) := by
  unfold multiplyRepeatingBlockTridiagonal
  simp only [List.length_map]
  refine bind_hom_same fun _ => bind_hom_same fun _ => bind_hom_same fun _ => ?_
  refine bind_hom _ (rd_map (·.map h) A 0) fun a0 => bind_hom _ (rd_map (List.map h) x 0) fun x0 => ?_
  refine bind_hom (List.map (List.map h)) (multiplyInto_hom hh ..) fun rhs => ?_
  refine foldlM_hom (List.map (List.map h)) _ _ (fun rhs i => ?_) _ _
  refine bind_hom _ (rd_map (·.map h) B i) fun b => bind_hom _ (rd_map (List.map h) x (i + 1)) fun x' => ?_
  refine bind_hom (List.map (List.map h)) (multiplyInto_hom hh ..) fun rhs => ?_
  refine bind_hom _ (rd_map (·.map h) B i) fun b => bind_hom _ (rd_map (List.map h) x i) fun x' => ?_
  refine bind_hom (List.map (List.map h)) (multiplyInto_hom hh ..) fun rhs => ?_
  refine bind_hom _ (rd_map (·.map h) A (i + 1)) fun b => bind_hom _ (rd_map (List.map h) x (i + 1)) fun x' => ?_
  exact multiplyInto_hom hh ..

theorem multiplyArrowheadLinked_hom (m : ArrowheadMatrix K) (x rhs : ArrowheadVector K) :
    multiplyArrowheadLinked (m.map h) (x.map h) (rhs.map h) =
      (do return (← multiplyArrowheadLinked m x rhs).map h) := by
  unfold multiplyArrowheadLinked
  simp only [ArrowheadMatrix.map, ArrowheadVector.map, List.length_map]
  refine bind_hom (g₂ := fun v : ArrowheadVector K => v.map h) (List.map h) (multiply_hom hh ..) fun start => ?_
  refine bind_hom _ (rd_map (List.map h) x.tridiag 0) fun x0 => ?_
  refine bind_hom (List.map h) (multiply_hom hh ..) fun start => ?_
  refine bind_hom (List.map h) (multiply_hom hh ..) fun start => ?_
  refine bind_hom (List.map (List.map h)) (multiplyInto_hom hh ..) fun tridiag => ?_
  refine bind_hom (List.map (List.map h)) (multiplyRepeatingBlockTridiagonal_hom hh ..) fun tridiag => ?_
  refine bind_hom (fun st : List (List K) × List K => (st.1.map (List.map h), st.2.map h))
    (foldlM_hom (fun st : List (List K) × List K => (st.1.map (List.map h), st.2.map h)) _ _ (fun st i => ?_) _
      (tridiag, rhs.outer)) fun st => ?_
  · refine bind_hom _ (rd_map (·.map h) m.outerSubdiag i) fun b => ?_
    refine bind_hom (List.map (List.map h)) (multiplyInto_hom hh ..) fun tridiag => ?_
    refine bind_hom _ (rd_map (·.map h) m.outerSubdiag i) fun b =>
      bind_hom _ (rd_map (List.map h) x.tridiag i) fun x' => ?_
    refine bind_hom (List.map h) (multiply_hom hh ..) fun outer => ?_
    exact pure_hom rfl
  · obtain ⟨tridiag, outer⟩ := st
    refine bind_hom (List.map (List.map h)) (multiplyInto_hom hh ..) fun tridiag => ?_
    refine bind_hom _ (rd_map (List.map h) x.tridiag m.tridiagSubdiag.length) fun x' => ?_
    refine bind_hom (List.map h) (multiply_hom hh ..) fun link => ?_
    refine bind_hom (List.map h) (multiply_hom hh ..) fun link => ?_
    refine bind_hom (List.map h) (multiply_hom hh ..) fun link => ?_
    refine bind_hom (List.map h) (multiply_hom hh ..) fun outer => ?_
    refine bind_hom (List.map h) (multiply_hom hh ..) fun outer => ?_
    refine bind_hom (List.map h) (multiply_hom hh ..) fun outer => ?_
    exact pure_hom rfl

end

/-! ## Invariants -/

section

variable [Add K] [Mul K] {P Q : K → Prop} (step : ∀ a t, P a → Q t → P (a + t))

omit [Add K] [Mul K] in
theorem rd_mem {α : Type} {l : List α} {i : Nat} {a : α} (h : rd l i = .ok a) : a ∈ l := by
  exact List.mem_of_getElem? (rd_eq_ok.mp h)

theorem foldlM_keeps {α β : Type} {p : β → Prop} {f : β → α → Res β} (hf : ∀ b a b', p b → f b a = .ok b' → p b') :
    ∀ {l : List α} {b b' : β}, p b → l.foldlM f b = .ok b' → p b'
  | [], b, b', hb, h => by cases h; exact hb
  | a :: l, b, b', hb, h => by
    rw [List.foldlM_cons] at h
    obtain ⟨c, hc, h⟩ := bind_eq_ok.mp h
    exact foldlM_keeps hf (hf b a c hb hc) h

include step

theorem multiplyEntry_inv {kind : MultiplyKind} {m : MatIn K} {x rhs v : List K} {t : Nat}
    (hQ : ∀ a ∈ m.numbers, ∀ y ∈ x, Q (a * y)) (hP : ∀ a ∈ rhs, P a) (hv : multiplyEntry kind m x rhs t = .ok v) :
    ∀ a ∈ v, P a := by
  have key : ∀ {rhs v : List K} {i : Nat} {a : K} {j : Nat}, a ∈ m.values → (∀ a ∈ rhs, P a) →
      (do wr rhs i ((← rd rhs i) + a * (← rd x j))) = .ok v → ∀ a ∈ v, P a := by
    intro rhs v i a j ha hP hv
    obtain ⟨r, hr, hv⟩ := bind_eq_ok.mp hv
    obtain ⟨y, hy, hv⟩ := bind_eq_ok.mp hv
    rw [(wr_eq_ok.mp hv).2]
    intro b hb
    rcases List.mem_or_eq_of_mem_set hb with hb | rfl
    · exact hP b hb
    · exact step _ _ (hP r (rd_mem hr)) (hQ a ha y (rd_mem hy))
  have e : multiplyEntry kind m x rhs t = (do
      let entry ← rd m.sparsity.entries t
      let value ← m.valueAt t
      let rhs ← (if kind.hasNormal then do
          wr rhs entry.row ((← rd rhs entry.row) + value * (← rd x entry.col))
        else pure rhs : Res (List K))
      (if kind = .symmetric ∧ entry.row = entry.col then return rhs
        else if kind.hasTransposed then do
          wr rhs entry.col ((← rd rhs entry.col) + value * (← rd x entry.row))
        else return rhs : Res (List K))) := by
    unfold multiplyEntry
    refine bind_congr fun entry => bind_congr fun value => ?_
    cases kind.hasNormal <;> simp
  rw [e] at hv
  obtain ⟨e, -, hv⟩ := bind_eq_ok.mp hv
  obtain ⟨a, ha, hv⟩ := bind_eq_ok.mp hv
  obtain ⟨r, hr, hv⟩ := bind_eq_ok.mp hv
  have ha' : a ∈ m.values := rd_mem ha
  have hr' : ∀ a ∈ r, P a := by
    split at hr
    · exact key ha' hP hr
    · cases hr
      exact hP
  split at hv
  · cases hv
    exact hr'
  · split at hv
    · exact key ha' hr' hv
    · cases hv
      exact hr'

theorem multiply_inv {kind : MultiplyKind} {m : MatIn K} {x rhs v : List K}
    (hQ : ∀ a ∈ m.numbers, ∀ y ∈ x, Q (a * y)) (hP : ∀ a ∈ rhs, P a) (hv : multiply kind m x rhs = .ok v) :
    ∀ a ∈ v, P a :=
  foldlM_keeps (p := fun v => ∀ a ∈ v, P a) (fun _ _ _ hb h => multiplyEntry_inv step hQ hb h) hP hv

theorem multiplyInto_inv {kind : MultiplyKind} {m : MatIn K} {x : List K} {rhs v : List (List K)} {t : Nat}
    (hQ : ∀ a ∈ m.numbers, ∀ y ∈ x, Q (a * y)) (hP : ∀ a ∈ rhs.flatMap id, P a)
    (hv : multiplyInto kind m x rhs t = .ok v) : ∀ a ∈ v.flatMap id, P a := by
  unfold multiplyInto at hv
  obtain ⟨r, hr, hv⟩ := bind_eq_ok.mp hv
  obtain ⟨r', hr', hv⟩ := bind_eq_ok.mp hv
  rw [(wr_eq_ok.mp hv).2]
  intro a ha
  obtain ⟨l, hl, hal⟩ := List.mem_flatMap.mp ha
  have hmem : ∀ l ∈ rhs, ∀ a ∈ l, P a := fun l hl a ha => hP a (List.mem_flatMap.mpr ⟨l, hl, ha⟩)
  rcases List.mem_or_eq_of_mem_set hl with hl | rfl
  · exact hmem l hl a hal
  · refine multiply_inv step hQ ?_ hr' a hal
    exact hmem _ (rd_mem hr)

theorem multiplyRepeatingBlockTridiagonal_inv {A B : List (MatIn K)} {x rhs v : List (List K)}
    (hA : ∀ m ∈ A, ∀ a ∈ m.numbers, ∀ z ∈ x, ∀ y ∈ z, Q (a * y))
    (hB : ∀ m ∈ B, ∀ a ∈ m.numbers, ∀ z ∈ x, ∀ y ∈ z, Q (a * y)) (hP : ∀ a ∈ rhs.flatMap id, P a)
    (hv : multiplyRepeatingBlockTridiagonal A B x rhs = .ok v) : ∀ a ∈ v.flatMap id, P a := by
  unfold multiplyRepeatingBlockTridiagonal at hv
  obtain ⟨-, -, hv⟩ := bind_eq_ok.mp hv
  obtain ⟨-, -, hv⟩ := bind_eq_ok.mp hv
  obtain ⟨-, -, hv⟩ := bind_eq_ok.mp hv
  obtain ⟨a0, ha0, hv⟩ := bind_eq_ok.mp hv
  obtain ⟨x0, hx0, hv⟩ := bind_eq_ok.mp hv
  obtain ⟨r, hr, hv⟩ := bind_eq_ok.mp hv
  refine foldlM_keeps (p := fun v : List (List K) => ∀ a ∈ v.flatMap id, P a) (fun v i v' hp hf => ?_)
    (multiplyInto_inv step (fun a ha => hA _ (rd_mem ha0) a ha _ (rd_mem hx0)) hP hr) hv
  obtain ⟨b1, hb1, hf⟩ := bind_eq_ok.mp hf
  obtain ⟨x1, hx1, hf⟩ := bind_eq_ok.mp hf
  obtain ⟨r1, hr1, hf⟩ := bind_eq_ok.mp hf
  obtain ⟨b2, hb2, hf⟩ := bind_eq_ok.mp hf
  obtain ⟨x2, hx2, hf⟩ := bind_eq_ok.mp hf
  obtain ⟨r2, hr2, hf⟩ := bind_eq_ok.mp hf
  obtain ⟨b3, hb3, hf⟩ := bind_eq_ok.mp hf
  obtain ⟨x3, hx3, hf⟩ := bind_eq_ok.mp hf
  refine multiplyInto_inv step (fun a ha => hA _ (rd_mem hb3) a ha _ (rd_mem hx3)) ?_ hf
  refine multiplyInto_inv step (fun a ha => hB _ (rd_mem hb2) a ha _ (rd_mem hx2)) ?_ hr2
  exact multiplyInto_inv step (fun a ha => hB _ (rd_mem hb1) a ha _ (rd_mem hx1)) hp hr1

theorem multiplyArrowheadLinked_inv {m : ArrowheadMatrix K} {x rhs v : ArrowheadVector K}
    (hQ : ∀ a ∈ m.numbers, ∀ y ∈ x.numbers, Q (a * y)) (hP : ∀ a ∈ rhs.numbers, P a)
    (hv : multiplyArrowheadLinked m x rhs = .ok v) : ∀ a ∈ v.numbers, P a := by
  have q : ∀ {b : MatIn K} {z : List K},
      (b = m.startDiag ∨ b = m.startNext ∨ b = m.startOuter ∨ b ∈ m.tridiagDiag ∨ b ∈ m.tridiagSubdiag ∨
        b = m.linkPrev ∨ b = m.linkDiag ∨ b = m.linkNext ∨ b ∈ m.outerSubdiag ∨ b = m.outerDiag) →
      (z = x.start ∨ z ∈ x.tridiag ∨ z = x.link ∨ z = x.outer) → ∀ a ∈ b.numbers, ∀ y ∈ z, Q (a * y) := by
    intro b z hb hz a ha y hy
    refine hQ a ?_ y ?_
    · simp only [ArrowheadMatrix.numbers, List.mem_append, List.mem_flatMap]
      rcases hb with rfl | rfl | rfl | hb | hb | rfl | rfl | rfl | hb | rfl
      · exact .inl ha
      · exact .inr (.inl ha)
      · exact .inr (.inr (.inl ha))
      · exact .inr (.inr (.inr (.inl ⟨b, hb, ha⟩)))
      · exact .inr (.inr (.inr (.inr (.inl ⟨b, hb, ha⟩))))
      · exact .inr (.inr (.inr (.inr (.inr (.inl ha)))))
      · exact .inr (.inr (.inr (.inr (.inr (.inr (.inl ha))))))
      · exact .inr (.inr (.inr (.inr (.inr (.inr (.inr (.inl ha)))))))
      · exact .inr (.inr (.inr (.inr (.inr (.inr (.inr (.inr (.inl ⟨b, hb, ha⟩))))))))
      · exact .inr (.inr (.inr (.inr (.inr (.inr (.inr (.inr (.inr ha))))))))
    · simp only [ArrowheadVector.numbers, List.mem_append, List.mem_flatMap, id_eq]
      rcases hz with rfl | hz | rfl | rfl
      · exact .inl hy
      · exact .inr (.inl ⟨z, hz, hy⟩)
      · exact .inr (.inr (.inl hy))
      · exact .inr (.inr (.inr hy))
  have hS : ∀ a ∈ rhs.start, P a := fun a ha => hP a (List.mem_append.mpr (.inl ha))
  have hT : ∀ a ∈ rhs.tridiag.flatMap id, P a :=
    fun a ha => hP a (List.mem_append.mpr (.inr (List.mem_append.mpr (.inl ha))))
  have hL : ∀ a ∈ rhs.link, P a := fun a ha =>
    hP a (List.mem_append.mpr (.inr (List.mem_append.mpr (.inr (List.mem_append.mpr (.inl ha))))))
  have hO : ∀ a ∈ rhs.outer, P a := fun a ha =>
    hP a (List.mem_append.mpr (.inr (List.mem_append.mpr (.inr (List.mem_append.mpr (.inr ha))))))
  unfold multiplyArrowheadLinked at hv
  obtain ⟨s1, e1, hv⟩ := bind_eq_ok.mp hv
  obtain ⟨x0, ex0, hv⟩ := bind_eq_ok.mp hv
  obtain ⟨s2, e2, hv⟩ := bind_eq_ok.mp hv
  obtain ⟨s3, e3, hv⟩ := bind_eq_ok.mp hv
  obtain ⟨t1, e4, hv⟩ := bind_eq_ok.mp hv
  obtain ⟨t2, e5, hv⟩ := bind_eq_ok.mp hv
  obtain ⟨⟨t3, o1⟩, e6, hv⟩ := bind_eq_ok.mp hv
  obtain ⟨t4, e7, hv⟩ := bind_eq_ok.mp hv
  obtain ⟨xN, exN, hv⟩ := bind_eq_ok.mp hv
  obtain ⟨l1, e8, hv⟩ := bind_eq_ok.mp hv
  obtain ⟨l2, e9, hv⟩ := bind_eq_ok.mp hv
  obtain ⟨l3, e10, hv⟩ := bind_eq_ok.mp hv
  obtain ⟨o2, e11, hv⟩ := bind_eq_ok.mp hv
  obtain ⟨o3, e12, hv⟩ := bind_eq_ok.mp hv
  obtain ⟨o4, e13, hv⟩ := bind_eq_ok.mp hv
  cases hv
  have p3 := multiply_inv step (q (by simp) (by simp)) (multiply_inv step (q (by simp) (.inr (.inl (rd_mem ex0))))
    (multiply_inv step (q (by simp) (by simp)) hS e1) e2) e3
  have p5 := multiplyRepeatingBlockTridiagonal_inv step
    (fun b hb a ha z hz => q (.inr (.inr (.inr (.inl hb)))) (.inr (.inl hz)) a ha)
    (fun b hb a ha z hz => q (.inr (.inr (.inr (.inr (.inl hb))))) (.inr (.inl hz)) a ha)
    (multiplyInto_inv step (q (by simp) (by simp)) hT e4) e5
  have p6 := foldlM_keeps (p := fun st : List (List K) × List K => (∀ a ∈ st.1.flatMap id, P a) ∧ ∀ a ∈ st.2, P a)
    (fun st i st' hp hf => by
      obtain ⟨b1, hb1, hf⟩ := bind_eq_ok.mp hf
      obtain ⟨r1, hr1, hf⟩ := bind_eq_ok.mp hf
      obtain ⟨b2, hb2, hf⟩ := bind_eq_ok.mp hf
      obtain ⟨y2, hy2, hf⟩ := bind_eq_ok.mp hf
      obtain ⟨r2, hr2, hf⟩ := bind_eq_ok.mp hf
      cases hf
      have m1 := rd_mem hb1
      have m2 := rd_mem hb2
      exact ⟨multiplyInto_inv step (q (by simp [m1]) (by simp)) hp.1 hr1,
        multiply_inv step (q (by simp [m2]) (.inr (.inl (rd_mem hy2)))) hp.2 hr2⟩) ⟨p5, hO⟩ e6
  have p7 := multiplyInto_inv step (q (by simp) (by simp)) p6.1 e7
  have p10 := multiply_inv step (q (by simp) (by simp)) (multiply_inv step (q (by simp) (by simp))
    (multiply_inv step (q (by simp) (.inr (.inl (rd_mem exN)))) hL e8) e9) e10
  have p13 := multiply_inv step (q (by simp) (by simp)) (multiply_inv step (q (by simp) (by simp))
    (multiply_inv step (q (by simp) (by simp)) p6.2 e11) e12) e13
  intro a ha
  simp only [ArrowheadVector.numbers, List.mem_append] at ha
  rcases ha with ha | ha | ha | ha
  · exact p3 a ha
  · exact p7 a ha
  · exact p10 a ha
  · exact p13 a ha

end

end Ctldl
