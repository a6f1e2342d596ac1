import Verif.Lemmas.Steps

/- Interleavings of programs with separate footprints: the diamond property and its consequences. -/
set_option autoImplicit false

namespace MultiArray
open Spec
variable {T α : Type}

theorem St.setCell_comm {s : St T} {p q : Ptr} {c0 d0 : Cell T} (hp : s.cell? p = some c0) (hq : s.cell? q = some d0) (hne : p ≠ q) (c d : Cell T) :
    (s.setCell p c).setCell q d = (s.setCell q d).setCell p c := by
  unfold St.cell? at hp hq
  cases hhp : s.heap p.blk with
  | none => rw [hhp] at hp; simp at hp
  | some cp =>
    cases hhq : s.heap q.blk with
    | none => rw [hhq] at hq; simp at hq
    | some cq =>
      rw [hhp] at hp; rw [hhq] at hq
      simp only at hp hq
      have hop : 0 ≤ p.off := by by_contra h; rw [if_neg h] at hp; cases hp
      have hoq : 0 ≤ q.off := by by_contra h; rw [if_neg h] at hq; cases hq
      by_cases hb : p.blk = q.blk
      · have hoff : p.off.toNat ≠ q.off.toNat := by
          intro h
          apply hne
          obtain ⟨a, b⟩ := p; obtain ⟨a', b'⟩ := q
          simp only at hb hop hoq h
          simp only [Ptr.mk.injEq]; omega
        have hcc : cp = cq := by
          rw [hb, hhq] at hhp
          injection hhp with h
          exact h.symm
        subst hcc
        have e1 : s.setCell p c = { s with heap := fun b => if b = p.blk then some ⟨cp.provider, cp.cells.set p.off.toNat c⟩ else s.heap b } := by
          unfold St.setCell; rw [hhp]
        have e2 : s.setCell q d = { s with heap := fun b => if b = q.blk then some ⟨cp.provider, cp.cells.set q.off.toNat d⟩ else s.heap b } := by
          unfold St.setCell; rw [hhq]
        rw [e1, e2]
        unfold St.setCell
        simp only [hb, if_true]
        congr 1
        funext b
        by_cases h : b = q.blk
        · simp only [h, if_true]; rw [List.set_comm _ _ hoff]
        · simp only [h, if_false]
      · have e1 : s.setCell p c = { s with heap := fun b => if b = p.blk then some ⟨cp.provider, cp.cells.set p.off.toNat c⟩ else s.heap b } := by
          unfold St.setCell; rw [hhp]
        have e2 : s.setCell q d = { s with heap := fun b => if b = q.blk then some ⟨cq.provider, cq.cells.set q.off.toNat d⟩ else s.heap b } := by
          unfold St.setCell; rw [hhq]
        rw [e1, e2]
        unfold St.setCell
        have hb' : ¬ q.blk = p.blk := fun h => hb h.symm
        simp only [if_neg hb, if_neg hb', hhp, hhq]
        congr 1
        funext b
        by_cases h : b = q.blk
        · subst h; simp [hb']
        · simp [h]

theorem St.get?_setCell {s : St T} {p : Ptr} {w : T} (hp : s.get? p = some w) (v : T) (q : Ptr) :
    (s.setCell p (.obj v)).get? q = if q = p then some v else s.get? q := by
  unfold St.get?
  rw [St.cell?_setCell (St.get?_eq_some.mp hp)]
  by_cases h : q = p
  · simp only [if_pos h]
  · simp only [if_neg h]

/-- The footprints of the threads. -/
abbrev Prints := List ((Ptr → Prop) × (Ptr → Prop))

/-- Every thread stays in its footprint and every footprint consists of live objects. -/
structure Safe (fp : Prints) (c : Pool T) : Prop where
  len : c.threads.length = fp.length
  conf : ∀ (i : Nat) t R W, c.threads[i]? = some t → fp[i]? = some (R, W) → Confined R W t
  live : ∀ (i : Nat) R W, fp[i]? = some (R, W) → ∀ p, R p ∨ W p → ∃ v, c.mem.get? p = some v

theorem Safe.print {fp : Prints} {c : Pool T} (h : Safe fp c) {i : Nat} {t : Prog T Unit} (ht : c.threads[i]? = some t) :
    ∃ R W, fp[i]? = some (R, W) ∧ Confined R W t := by
  have hi := (List.getElem?_eq_some_iff.mp ht).1
  rw [h.len] at hi
  refine ⟨fp[i].1, fp[i].2, by simp [hi], h.conf i t _ _ ht (by simp [hi])⟩

theorem set_get? {β : Type} {l : List β} {i j : Nat} {x y : β} (h : (l.set i x)[j]? = some y) : (j = i ∧ y = x) ∨ (j ≠ i ∧ l[j]? = some y) := by
  by_cases hij : j = i
  · subst hij
    have : j < l.length := by simpa using (List.getElem?_eq_some_iff.mp h).1
    rw [List.getElem?_set_self this] at h
    cases h
    exact .inl ⟨rfl, rfl⟩
  · rw [List.getElem?_set_ne (by omega)] at h
    exact .inr ⟨hij, h⟩

theorem Safe.step {fp : Prints} {c c' : Pool T} {i : Nat} (h : Safe fp c) (hs : Step c i c') : Safe fp c' := by
  cases hs with
  | load ht hv =>
    refine ⟨by simpa using h.len, ?_, h.live⟩
    intro j t R W hj hfp
    rcases set_get? hj with ⟨rfl, rfl⟩ | ⟨_, hj⟩
    · exact (h.conf _ _ R W ht hfp).2 _
    · exact h.conf _ _ R W hj hfp
  | store ht hv =>
    refine ⟨by simpa using h.len, ?_, ?_⟩
    · intro j t R W hj hfp
      rcases set_get? hj with ⟨rfl, rfl⟩ | ⟨_, hj⟩
      · exact (h.conf _ _ R W ht hfp).2
      · exact h.conf _ _ R W hj hfp
    · intro j R W hfp p hp
      obtain ⟨v, hvv⟩ := h.live j R W hfp p hp
      simp only
      rw [St.get?_setCell hv]
      split
      · exact ⟨_, rfl⟩
      · exact ⟨v, hvv⟩

theorem Safe.run {fp : Prints} {c c' : Pool T} {is : List Nat} (h : Safe fp c) (hr : Run c is c') : Safe fp c' := by
  induction hr with
  | nil => exact h
  | cons hs _ ih => exact ih (h.step hs)

/-- A safe thread that has not ended can make a step. -/
theorem Safe.progress {fp : Prints} {c : Pool T} (h : Safe fp c) {i : Nat} {t : Prog T Unit} (ht : c.threads[i]? = some t) (hne : t ≠ .ret ()) :
    ∃ c', Step c i c' := by
  obtain ⟨m, ts⟩ := c
  obtain ⟨R, W, hfp, hc⟩ := h.print ht
  cases t with
  | ret a => exact absurd rfl hne
  | load p k =>
    obtain ⟨v, hv⟩ := h.live i R W hfp p (.inl hc.1)
    exact ⟨_, .load ht hv⟩
  | store p v k =>
    obtain ⟨w, hw⟩ := h.live i R W hfp p (.inr hc.1)
    exact ⟨_, .store ht hw⟩
  | assertFail => exact hc.elim
  | ub => exact hc.elim

theorem step_det {c c1 c2 : Pool T} {i : Nat} (h1 : Step c i c1) (h2 : Step c i c2) : c1 = c2 := by
  cases h1 with
  | load ht hv =>
    cases h2 with
    | load ht' hv' => rw [ht] at ht'; cases ht'; rw [hv] at hv'; cases hv'; rfl
    | store ht' hv' => rw [ht] at ht'; cases ht'
  | store ht hv =>
    cases h2 with
    | load ht' hv' => rw [ht] at ht'; cases ht'
    | store ht' hv' => rw [ht] at ht'; cases ht'; rfl

theorem set_ne {β : Type} {l : List β} {i j : Nat} (hne : i ≠ j) (x : β) {y : β} (h : l[j]? = some y) : (l.set i x)[j]? = some y := by
  rw [List.getElem?_set_ne hne]; exact h

/-- Steps of different threads commute. -/
theorem diamond {fp : Prints} (hsep : Separate fp) {c c1 c2 : Pool T} (h : Safe fp c) {i j : Nat} (hne : i ≠ j) (h1 : Step c i c1) (h2 : Step c j c2) :
    ∃ c', Step c1 j c' ∧ Step c2 i c' := by
  have hne' : j ≠ i := fun e => hne e.symm
  cases h1 with
  | load ht hv =>
    cases h2 with
    | load ht' hv' =>
      refine ⟨_, .load (set_ne hne _ ht') hv', ?_⟩
      rw [List.set_comm _ _ hne]
      exact .load (set_ne hne' _ ht) hv
    | store ht' hv' =>
      obtain ⟨R, W, hfp, hc⟩ := h.print ht
      obtain ⟨R', W', hfp', hc'⟩ := h.print ht'
      have hpq := hsep j i R' W' R W hne' hfp' hfp _ hc'.1
      refine ⟨_, .store (set_ne hne _ ht') hv', ?_⟩
      rw [List.set_comm _ _ hne]
      refine .load (set_ne hne' _ ht) ?_
      rw [St.get?_setCell hv', if_neg]
      · exact hv
      · rintro rfl; exact hpq.1 hc.1
  | store ht hv =>
    cases h2 with
    | load ht' hv' =>
      obtain ⟨R, W, hfp, hc⟩ := h.print ht
      obtain ⟨R', W', hfp', hc'⟩ := h.print ht'
      have hpq := hsep i j R W R' W' hne hfp hfp' _ hc.1
      rename_i w
      refine ⟨_, .load (v := w) (set_ne hne _ ht') ?_, ?_⟩
      · rw [St.get?_setCell hv, if_neg]
        · exact hv'
        · rintro rfl; exact hpq.1 hc'.1
      · rw [List.set_comm _ _ hne]
        exact .store (set_ne hne' _ ht) hv
    | store ht' hv' =>
      obtain ⟨R, W, hfp, hc⟩ := h.print ht
      obtain ⟨R', W', hfp', hc'⟩ := h.print ht'
      have hpq := hsep i j R W R' W' hne hfp hfp' _ hc.1
      rename_i p v w k q v' w' k'
      have hpne : p ≠ q := by rintro rfl; exact hpq.2 hc'.1
      refine ⟨_, .store (w := w') (set_ne hne _ ht') ?_, ?_⟩
      · rw [St.get?_setCell hv, if_neg (fun e => hpne e.symm)]; exact hv'
      · rw [List.set_comm _ _ hne, St.setCell_comm (St.get?_eq_some.mp hv) (St.get?_eq_some.mp hv') hpne]
        exact .store (w := w) (set_ne hne' _ ht) (by rw [St.get?_setCell hv', if_neg hpne]; exact hv)

/-- The lengths and ends of runs. -/
def RunN (c : Pool T) (n : Nat) (c' : Pool T) : Prop := ∃ is, is.length = n ∧ Run c is c'

theorem finished_no_step {c c' : Pool T} {i : Nat} (hf : Finished c) (h : Step c i c') : False := by
  cases h with
  | load ht _ => have := hf _ (List.mem_of_getElem? ht); cases this
  | store ht _ => have := hf _ (List.mem_of_getElem? ht); cases this

/-- One step does not leave the paths to a final configuration, and shortens them by one. -/
theorem step_toward {fp : Prints} (hsep : Separate fp) {f : Pool T} (hf : Finished f) (n : Nat) (c c1 : Pool T) (i : Nat) (h : Safe fp c)
    (hs : Step c i c1) (hr : RunN c n f) : ∃ m, n = m + 1 ∧ RunN c1 m f := by
  induction n generalizing c c1 i with
  | zero =>
    obtain ⟨is, hlen, hr⟩ := hr
    match is, hlen, hr with
    | [], _, .nil => exact (finished_no_step hf hs).elim
  | succ n ih =>
    obtain ⟨is, hlen, hr⟩ := hr
    match is, hlen, hr with
    | j :: is, hlen, .cons (c1 := c2) hs2 hr2 =>
      by_cases hij : i = j
      · subst hij
        rw [step_det hs hs2]
        exact ⟨n, rfl, is, by simpa using hlen, hr2⟩
      · obtain ⟨c', h1, h2⟩ := diamond hsep h hij hs hs2
        obtain ⟨m, hm, is', hl', hr'⟩ := ih c2 c' i (h.step hs2) h2 ⟨is, by simpa using hlen, hr2⟩
        exact ⟨n, rfl, j :: is', by simp [hl', hm], .cons h1 hr'⟩

theorem run_toward {fp : Prints} (hsep : Separate fp) {f : Pool T} (hf : Finished f) (n : Nat) (c d : Pool T) (is : List Nat) (h : Safe fp c)
    (hs : Run c is d) (hr : RunN c n f) : ∃ m, n = is.length + m ∧ RunN d m f := by
  induction hs generalizing n with
  | nil => exact ⟨n, by simp, hr⟩
  | cons h1 h2 ih =>
    obtain ⟨m, hm, hr'⟩ := step_toward hsep hf n _ _ _ h h1 hr
    obtain ⟨m', hm', hr''⟩ := ih m (h.step h1) hr'
    exact ⟨m', by simp only [List.length_cons]; omega, hr''⟩

/-! ### Sequential execution is one of the schedules -/

theorem Run.append {c c1 c2 : Pool T} {is js : List Nat} (h1 : Run c is c1) (h2 : Run c1 js c2) : Run c (is ++ js) c2 := by
  induction h1 with
  | nil => exact h2
  | cons hs _ ih => exact .cons hs (ih h2)

theorem exec_run {R W : Ptr → Prop} (t : Prog T Unit) (m : St T) (ts : List (Prog T Unit)) (i : Nat) (ht : ts[i]? = some t) (hc : Confined R W t)
    (hl : ∀ p, R p ∨ W p → ∃ v, m.get? p = some v) (hsch : m.sched = []) :
    ∃ m' is, t.exec m = .ok () m' ∧ Run ⟨m, ts⟩ is ⟨m', ts.set i (.ret ())⟩ ∧ m'.sched = [] ∧
      (∀ q, (∃ v, m.get? q = some v) → ∃ v, m'.get? q = some v) := by
  induction t generalizing m ts with
  | ret a =>
    refine ⟨m, [], rfl, ?_, hsch, fun q hq => hq⟩
    have : ts.set i (.ret ()) = ts := by
      have hlt := (List.getElem?_eq_some_iff.mp ht)
      obtain ⟨hlt, he⟩ := hlt
      rw [← he]
      exact List.set_getElem_self hlt
    rw [this]
    exact .nil
  | load p k ih =>
    obtain ⟨v, hv⟩ := hl p (.inl hc.1)
    have hi := (List.getElem?_eq_some_iff.mp ht).1
    obtain ⟨m', is, h1, h2, h3, h4⟩ := ih v m (ts.set i (k v)) (by simp [hi]) (hc.2 v) hl hsch
    refine ⟨m', i :: is, ?_, .cons (.load ht hv) ?_, h3, h4⟩
    · simp only [Prog.exec]; rw [Exec.bind_ok (load_ok hv)]; exact h1
    · simpa using h2
  | store p v k ih =>
    obtain ⟨w, hw⟩ := hl p (.inr hc.1)
    have hi := (List.getElem?_eq_some_iff.mp ht).1
    have hlive : ∀ q, (∃ v, m.get? q = some v) → ∃ u, (m.setCell p (.obj v)).get? q = some u := by
      rintro q ⟨u, hu⟩
      rw [St.get?_setCell hw]
      split
      · exact ⟨_, rfl⟩
      · exact ⟨u, hu⟩
    obtain ⟨m', is, h1, h2, h3, h4⟩ := ih (m.setCell p (.obj v)) (ts.set i k) (by simp [hi]) hc.2 (fun q hq => hlive q (hl q hq))
      (by rw [St.sched_setCell]; exact hsch)
    refine ⟨m', i :: is, ?_, .cons (.store ht hw) ?_, h3, fun q hq => h4 q (hlive q hq)⟩
    · simp only [Prog.exec]
      rw [Exec.bind_ok (s' := m.setCell p (.obj v)) (a := ()) (by simp only [assignCell, hw, hsch])]
      exact h1
    · simpa using h2
  | assertFail => exact hc.elim
  | ub => exact hc.elim

/-- Run programs one after the other. -/
def seqAll : List (Prog T Unit) → Exec T Unit
  | [] => pure ()
  | t :: ts => do t.exec; seqAll ts

theorem seqAll_run (fp : Prints) (ts pre : List (Prog T Unit)) (m : St T) (hlen : ts.length = fp.length)
    (hc : ∀ (i : Nat) t R W, ts[i]? = some t → fp[i]? = some (R, W) → Confined R W t)
    (hl : ∀ (i : Nat) R W, fp[i]? = some (R, W) → ∀ p, R p ∨ W p → ∃ v, m.get? p = some v) (hsch : m.sched = []) :
    ∃ m' is, seqAll ts m = .ok () m' ∧ Run ⟨m, pre ++ ts⟩ is ⟨m', pre ++ ts.map (fun _ => .ret ())⟩ := by
  induction ts generalizing pre m fp with
  | nil => exact ⟨m, [], rfl, .nil⟩
  | cons t ts ih =>
    match fp, hlen with
    | (R, W) :: fp, hlen =>
      obtain ⟨m1, is, h1, h2, h3, h4⟩ := exec_run t m (pre ++ t :: ts) pre.length (by simp) (hc 0 t R W rfl rfl) (hl 0 R W rfl) hsch
      obtain ⟨m', js, e1, e2⟩ := ih fp (pre ++ [.ret ()]) m1 (by simpa using hlen) (fun i t R W => hc (i + 1) t R W)
        (fun i R W hfp p hp => h4 p (hl (i + 1) R W hfp p hp)) h3
      refine ⟨m', is ++ js, ?_, Run.append h2 ?_⟩
      · simp only [seqAll]; rw [Exec.bind_ok h1]; exact e1
      · simpa using e2

/-- Everything about the schedules of separate threads. -/
theorem schedules (fp : Prints) (hsep : Separate fp) (ts : List (Prog T Unit)) (m : St T) (h : Safe fp ⟨m, ts⟩) (hsch : m.sched = []) :
    ∃ m' N, seqAll ts m = .ok () m' ∧ ∀ is c, Run ⟨m, ts⟩ is c →
      is.length ≤ N ∧ (Finished c ↔ is.length = N) ∧ (Finished c → c.mem = m') ∧ ∃ js f, Run c js f ∧ Finished f ∧ f.mem = m' := by
  obtain ⟨m', is0, h1, h2⟩ := seqAll_run fp ts [] m h.len h.conf h.live hsch
  have hfin : Finished (⟨m', ts.map (fun _ => .ret ())⟩ : Pool T) := by
    intro t ht
    obtain ⟨_, _, rfl⟩ := List.mem_map.mp ht
    rfl
  refine ⟨m', is0.length, h1, ?_⟩
  intro is c hr
  obtain ⟨k, hk, js, hjs, hr'⟩ := run_toward hsep hfin is0.length _ c is h hr ⟨is0, rfl, h2⟩
  have hzero : k = 0 → c = ⟨m', ts.map (fun _ => .ret ())⟩ := by
    intro h0
    rw [h0] at hjs
    match js, hjs, hr' with
    | [], _, .nil => rfl
  have hfin0 : Finished c → k = 0 := by
    intro hf
    match js, hjs, hr' with
    | [], hjs, _ => simpa using hjs.symm
    | _ :: _, _, .cons hs _ => exact (finished_no_step hf hs).elim
  refine ⟨by omega, ⟨fun hf => by have := hfin0 hf; omega, fun hl => by rw [hzero (by omega)]; exact hfin⟩,
    fun hf => by rw [hzero (hfin0 hf)], js, _, hr', hfin, rfl⟩

end MultiArray
