import Verif.SpecAssign
import Verif.Lemmas.Flat
import Verif.Lemmas.Iter

/- Proofs about `assign(first,last)` with any input iterator. -/
set_option autoImplicit false

namespace MultiArray
open Spec
variable {T σ : Type}

theorem assignLoopX_reads (it : InputIt T σ) (n : Nat) (out : Ptr) (q : σ) (ps : List Ptr) (h : ReadsFrom it q ps) :
    ∃ q', ReadsFrom it q' (ps.drop n) ∧ assignLoopX it n out q = (do copyTo out (ps.take n); pure q') := by
  induction n generalizing out q ps with
  | zero =>
    refine ⟨q, h, ?_⟩
    have : ∃ b, it.atEnd q = pure b := by
      cases ps with
      | nil => exact ⟨_, h⟩
      | cons p ps => exact ⟨_, h.1⟩
    obtain ⟨b, hb⟩ := this
    simp [assignLoopX, hb, copyTo]
  | succ n ih =>
    cases ps with
    | nil =>
      refine ⟨q, h, ?_⟩
      have h : it.atEnd q = pure true := h
      simp [assignLoopX, h, copyTo]
    | cons p ps =>
      obtain ⟨h1, q1, h2, h3⟩ := h
      obtain ⟨q', e1, e2⟩ := ih (out.add 1) q1 ps h3
      refine ⟨q', e1, ?_⟩
      simp [assignLoopX, h1, h2, copyTo, e2]

/-- The pairs (source, destination) of `copyTo`. -/
def toPairs : Ptr → List Ptr → List (Ptr × Ptr)
  | _, [] => []
  | out, p :: ps => (p, out) :: toPairs (out.add 1) ps

theorem copyTo_eq (out : Ptr) (ps : List Ptr) : (copyTo out ps : Exec T Unit) = copySeq (toPairs out ps) := by
  induction ps generalizing out with
  | nil => rfl
  | cons p ps ih => simp only [copyTo, toPairs, copySeq, ih]

theorem toPairs_getElem? (out : Ptr) (ps : List Ptr) (i : Nat) : (toPairs out ps)[i]? = ps[i]?.map (fun p => (p, out.add (i : Int))) := by
  induction ps generalizing out i with
  | nil => simp [toPairs]
  | cons p ps ih =>
    cases i with
    | zero => simp [toPairs, Ptr.add_zero]
    | succ i =>
      simp only [toPairs, List.getElem?_cons_succ, ih, Ptr.add_add]
      rw [show (1 : Int) + (i : Int) = ((i + 1 : Nat) : Int) by push_cast; ring]

theorem toPairs_length (out : Ptr) (ps : List Ptr) : (toPairs out ps).length = ps.length := by
  induction ps generalizing out with
  | nil => rfl
  | cons p ps ih => simp [toPairs, ih]

theorem Ptr.add_cancel (p : Ptr) {x y : Int} (h : p.add x = p.add y) : x = y := by
  have := congrArg Ptr.off h
  simp only [Ptr.add] at this
  omega

theorem toPairs_mem {out : Ptr} {ps : List Ptr} {x : Ptr × Ptr} (h : x ∈ toPairs out ps) :
    ∃ i : Nat, i < ps.length ∧ ps[i]? = some x.1 ∧ x.2 = out.add (i : Int) := by
  obtain ⟨i, hi⟩ := List.mem_iff_getElem?.mp h
  rw [toPairs_getElem?] at hi
  obtain ⟨p, hp, rfl⟩ := Option.map_eq_some_iff.mp hi
  exact ⟨i, (List.getElem?_eq_some_iff.mp hp).1, hp, rfl⟩

theorem toPairs_nodup (out : Ptr) (ps : List Ptr) : ((toPairs out ps).map Prod.snd).Nodup := by
  rw [List.nodup_iff_getElem?_ne_getElem?]
  intro i j hij hj
  rw [List.length_map, toPairs_length] at hj
  simp only [List.getElem?_map, toPairs_getElem?, Option.map_map]
  rw [List.getElem?_eq_getElem (show i < ps.length by omega), List.getElem?_eq_getElem hj]
  simp only [Option.map_some, Function.comp, ne_eq, Option.some.injEq]
  intro h
  have := Ptr.add_cancel _ h
  omega

theorem toPairs_pairwise (out : Ptr) (ps : List Ptr) (h : ∀ i j : Nat, i < j → ∀ p, ps[j]? = some p → p ≠ out.add (i : Int)) :
    (toPairs out ps).Pairwise (fun p q => p.2 ≠ q.1) := by
  rw [List.pairwise_iff_getElem]
  intro i j hi hj hij
  have h1 := toPairs_getElem? out ps i
  have h2 := toPairs_getElem? out ps j
  rw [List.getElem?_eq_getElem hi] at h1
  rw [List.getElem?_eq_getElem hj] at h2
  obtain ⟨p, hp, e1⟩ := Option.map_eq_some_iff.mp h1.symm
  obtain ⟨q, hq, e2⟩ := Option.map_eq_some_iff.mp h2.symm
  rw [← e1, ← e2]
  exact (h i j hij q hq).symm

theorem readsFrom_ptr (p last : Ptr) (m : Nat) (h : last = p.add (m : Int)) :
    ReadsFrom (ptrIt last : InputIt T Ptr) p ((List.range m).map (fun (i : Nat) => p.add (i : Int))) := by
  subst h
  induction m generalizing p with
  | zero => simp [ReadsFrom, ptrIt, Ptr.add_zero]
  | succ m ih =>
    rw [List.range_succ_eq_map, List.map_cons, List.map_map]
    refine ⟨?_, p.add 1, ?_, ?_⟩
    · show pure (decide (p = _)) = _
      congr 1
      rw [decide_eq_false_iff_not]
      intro h
      have := congrArg Ptr.off h
      simp only [Ptr.add] at this
      push_cast at this
      omega
    · simp [ptrIt, Ptr.add_zero]
    · have := ih (p.add 1)
      rw [Ptr.add_add, show (1 : Int) + (m : Int) = ((m + 1 : Nat) : Int) by push_cast; ring] at this
      convert this using 2
      funext i
      simp only [Function.comp, Ptr.add_add]
      congr 1
      push_cast; ring

theorem readsFrom_array (dbg : Bool) (p : Ptr) (e : Nat) (t b : Int) (j m : Nat) (hj : j + m = e) :
    ReadsFrom (InputIt.ofArray dbg ⟨b + (e : Int), ⟨p, [e], [t], [b]⟩⟩ : InputIt T It) ⟨b + (j : Int), ⟨p, [e], [t], [b]⟩⟩
      ((List.range' j m).map (fun (i : Nat) => p.add ((b + (i : Int)) * t))) := by
  induction m generalizing j with
  | zero =>
    obtain rfl : j = e := by omega
    show pure _ = _
    congr 1
    rw [It.equal_iff]
  | succ m ih =>
    rw [List.range'_succ, List.map_cons]
    refine ⟨?_, ⟨b + ((j + 1 : Nat) : Int), ⟨p, [e], [t], [b]⟩⟩, ?_, ih (j + 1) (by omega)⟩
    · show pure _ = _
      congr 1
      rw [← Bool.not_eq_true, It.equal_iff]
      intro h
      have := congrArg It.idx h
      simp only at this
      omega
    · show (do let v ← load (← Exec.lift (It.deref dbg _)).base; pure (v, It.increment _)) = _
      rw [It.deref_in dbg p e [] t [] b [] j (by omega)]
      simp only [Exec.lift_ok, pure_bind, It.increment, subAt]
      rw [show b + (j : Int) + 1 = b + ((j + 1 : Nat) : Int) by push_cast; ring]

end MultiArray
