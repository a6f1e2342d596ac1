import Verif.Lemmas.Conc

/- Interleavings of programs whose own run (without interference) stays in a footprint.  As Lemmas/Conc.lean, with `Goes` (what the program does in this memory) in place of `Confined` (what it may do
whatever it reads). -/
set_option autoImplicit false

namespace MultiArray
open Spec
variable {T α β : Type}

/-- Run in memory `m` without interference, the program ends normally, reads only `R`, writes only `W`, and finds live objects there. -/
def Goes (R W : Ptr → Prop) : Prog T α → St T → Prop
  | .ret _, _ => True
  | .load p k, m => R p ∧ ∃ v, m.get? p = some v ∧ Goes R W (k v) m
  | .store p v k, m => W p ∧ (∃ w, m.get? p = some w) ∧ Goes R W k (m.setCell p (.obj v))
  | .assertFail, _ => False
  | .ub, _ => False

/-- The same objects in the cells `D`. -/
def SameOn (D : Ptr → Prop) (m m' : St T) : Prop := ∀ p, D p → m.get? p = m'.get? p

theorem SameOn.setCell {D : Ptr → Prop} {m m' : St T} (h : SameOn D m m') {p : Ptr} {w w' : T} (hp : m.get? p = some w) (hp' : m'.get? p = some w') (v : T) :
    SameOn D (m.setCell p (.obj v)) (m'.setCell p (.obj v)) := by
  intro q hq
  rw [St.get?_setCell hp, St.get?_setCell hp']
  split
  · rfl
  · exact h q hq

theorem Goes.congr {R W : Ptr → Prop} {x : Prog T α} {m m' : St T} (h : Goes R W x m) (ha : SameOn (fun p => R p ∨ W p) m m') : Goes R W x m' := by
  induction x generalizing m m' with
  | ret a => trivial
  | load p k ih =>
    obtain ⟨h1, v, h2, h3⟩ := h
    exact ⟨h1, v, by rw [← ha p (.inl h1)]; exact h2, ih v h3 ha⟩
  | store p v k ih =>
    obtain ⟨h1, ⟨w, h2⟩, h3⟩ := h
    have h2' : m'.get? p = some w := by rw [← ha p (.inr h1)]; exact h2
    exact ⟨h1, ⟨w, h2'⟩, ih h3 (ha.setCell h2 h2' v)⟩
  | assertFail => exact h.elim
  | ub => exact h.elim

theorem Goes.mono {R W R' W' : Ptr → Prop} {x : Prog T α} {m : St T} (h : Goes R W x m) (hR : ∀ p, R p → R' p) (hW : ∀ p, W p → W' p) : Goes R' W' x m := by
  induction x generalizing m with
  | ret a => trivial
  | load p k ih =>
    obtain ⟨h1, v, h2, h3⟩ := h
    exact ⟨hR p h1, v, h2, ih v h3⟩
  | store p v k ih =>
    obtain ⟨h1, h2, h3⟩ := h
    exact ⟨hW p h1, h2, ih h3⟩
  | assertFail => exact h.elim
  | ub => exact h.elim

theorem exec_store {p : Ptr} {v w : T} {k : Prog T α} {m : St T} (hp : m.get? p = some w) (hs : m.sched = []) :
    (Prog.store p v k).exec m = k.exec (m.setCell p (.obj v)) := by
  simp only [Prog.exec]
  rw [Exec.bind_ok (s' := m.setCell p (.obj v)) (a := ()) (by simp only [assignCell, hp, hs])]

theorem exec_load {p : Ptr} {v : T} {k : T → Prog T α} {m : St T} (hp : m.get? p = some v) : (Prog.load p k).exec m = (k v).exec m := by
  simp only [Prog.exec]
  rw [Exec.bind_ok (load_ok hp)]

theorem live_setCell {m : St T} {p : Ptr} {w : T} (hp : m.get? p = some w) (v : T) (q : Ptr) : (∃ u, (m.setCell p (.obj v)).get? q = some u) ↔ ∃ u, m.get? q = some u := by
  rw [St.get?_setCell hp]
  split
  · rename_i h; subst h; exact ⟨fun _ => ⟨w, hp⟩, fun _ => ⟨v, rfl⟩⟩
  · exact Iff.rfl

/-- What the run of such a program does: it ends, changes only `W`, keeps objects alive, and does the same in any memory that agrees on the footprint. -/
theorem Goes.exec {R W D : Ptr → Prop} {x : Prog T α} {m s : St T} (h : Goes R W x m) (hs : m.sched = []) (hs' : s.sched = []) (hD : ∀ p, R p ∨ W p → D p) (ha : SameOn D m s) :
    ∃ a m' s', x.exec m = .ok a m' ∧ x.exec s = .ok a s' ∧ m'.sched = [] ∧ s'.sched = [] ∧ SameOn D m' s' ∧ SameOn (fun p => ¬ W p) m m' ∧ SameOn (fun p => ¬ W p) s s' ∧
      (∀ q, (∃ u, m'.get? q = some u) ↔ ∃ u, m.get? q = some u) ∧ (∀ q, (∃ u, s'.get? q = some u) ↔ ∃ u, s.get? q = some u) := by
  induction x generalizing m s with
  | ret a => exact ⟨a, m, s, rfl, rfl, hs, hs', ha, fun _ _ => rfl, fun _ _ => rfl, fun _ => Iff.rfl, fun _ => Iff.rfl⟩
  | load p k ih =>
    obtain ⟨h1, v, h2, h3⟩ := h
    have h2' : s.get? p = some v := by rw [← ha p (hD p (.inl h1))]; exact h2
    rw [exec_load h2, exec_load h2']
    exact ih v h3 hs hs' ha
  | store p v k ih =>
    obtain ⟨h1, ⟨w, h2⟩, h3⟩ := h
    have h2' : s.get? p = some w := by rw [← ha p (hD p (.inr h1))]; exact h2
    rw [exec_store h2 hs, exec_store h2' hs']
    obtain ⟨a, m', s', e1, e2, e3, e4, e5, e6, e7, e8, e9⟩ := ih h3 (by rw [St.sched_setCell]; exact hs) (by rw [St.sched_setCell]; exact hs') (ha.setCell h2 h2' v)
    refine ⟨a, m', s', e1, e2, e3, e4, e5, ?_, ?_, fun q => (e8 q).trans (live_setCell h2 v q), fun q => (e9 q).trans (live_setCell h2' v q)⟩
    · intro q hq
      rw [← e6 q hq, St.get?_setCell h2, if_neg (by rintro rfl; exact hq h1)]
    · intro q hq
      rw [← e7 q hq, St.get?_setCell h2', if_neg (by rintro rfl; exact hq h1)]
  | assertFail => exact h.elim
  | ub => exact h.elim

theorem Goes.bind {R W : Ptr → Prop} {x : Prog T α} {f : α → Prog T β} {m : St T} (hs : m.sched = []) (hx : Goes R W x m)
    (hf : ∀ a m', x.exec m = .ok a m' → Goes R W (f a) m') : Goes R W (x >>= f) m := by
  show Goes R W (Prog.bind x f) m
  induction x generalizing m with
  | ret a => exact hf a m rfl
  | load p k ih =>
    obtain ⟨h1, v, h2, h3⟩ := hx
    exact ⟨h1, v, h2, ih v hs h3 (fun a m' he => hf a m' (by rw [exec_load h2]; exact he))⟩
  | store p v k ih =>
    obtain ⟨h1, ⟨w, h2⟩, h3⟩ := hx
    exact ⟨h1, ⟨w, h2⟩, ih (by rw [St.sched_setCell]; exact hs) h3 (fun a m' he => hf a m' (by rw [exec_store h2 hs]; exact he))⟩
  | assertFail => exact hx.elim
  | ub => exact hx.elim

theorem Confined.goes {R W : Ptr → Prop} {x : Prog T α} {m : St T} (h : Confined R W x) (hl : ∀ p, R p ∨ W p → ∃ v, m.get? p = some v) : Goes R W x m := by
  induction x generalizing m with
  | ret a => trivial
  | load p k ih =>
    obtain ⟨v, hv⟩ := hl p (.inl h.1)
    exact ⟨h.1, v, hv, ih v (h.2 v) hl⟩
  | store p v k ih =>
    obtain ⟨w, hw⟩ := hl p (.inr h.1)
    exact ⟨h.1, ⟨w, hw⟩, ih h.2 (fun q hq => (live_setCell hw v q).mpr (hl q hq))⟩
  | assertFail => exact h.elim
  | ub => exact h.elim

/-- Every thread, run alone from here, stays in its footprint. -/
structure SafeG (fp : Prints) (c : Pool T) : Prop where
  len : c.threads.length = fp.length
  goes : ∀ (i : Nat) t R W, c.threads[i]? = some t → fp[i]? = some (R, W) → Goes R W t c.mem

theorem SafeG.print {fp : Prints} {c : Pool T} (h : SafeG fp c) {i : Nat} {t : Prog T Unit} (ht : c.threads[i]? = some t) :
    ∃ R W, fp[i]? = some (R, W) ∧ Goes R W t c.mem := by
  have hi := (List.getElem?_eq_some_iff.mp ht).1
  rw [h.len] at hi
  refine ⟨fp[i].1, fp[i].2, by simp [hi], h.goes i t _ _ ht (by simp [hi])⟩

theorem SafeG.step {fp : Prints} (hsep : Separate fp) {c c' : Pool T} {i : Nat} (h : SafeG fp c) (hs : Step c i c') : SafeG fp c' := by
  cases hs with
  | load ht hv =>
    refine ⟨by simpa using h.len, ?_⟩
    intro j t R W hj hfp
    rcases set_get? hj with ⟨rfl, rfl⟩ | ⟨_, hj⟩
    · obtain ⟨_, v, e1, e2⟩ := h.goes _ _ R W ht hfp
      rw [hv] at e1; cases e1
      exact e2
    · exact h.goes _ _ R W hj hfp
  | store ht hv =>
    refine ⟨by simpa using h.len, ?_⟩
    intro j t R W hj hfp
    rcases set_get? hj with ⟨rfl, rfl⟩ | ⟨hne, hj⟩
    · exact (h.goes _ _ R W ht hfp).2.2
    · obtain ⟨R', W', hfp', hc'⟩ := h.print ht
      refine (h.goes _ _ R W hj hfp).congr (fun q hq => ?_)
      show _ = (St.setCell _ _ _).get? q
      rw [St.get?_setCell hv, if_neg]
      rintro rfl
      have := hsep _ _ R' W' R W (fun e => hne e.symm) hfp' hfp _ hc'.1
      tauto

theorem SafeG.run {fp : Prints} (hsep : Separate fp) {c c' : Pool T} {is : List Nat} (h : SafeG fp c) (hr : Run c is c') : SafeG fp c' := by
  induction hr with
  | nil => exact h
  | cons hs _ ih => exact ih (h.step hsep hs)

theorem SafeG.progress {fp : Prints} {c : Pool T} (h : SafeG fp c) {i : Nat} {t : Prog T Unit} (ht : c.threads[i]? = some t) (hne : t ≠ .ret ()) :
    ∃ c', Step c i c' := by
  obtain ⟨m, ts⟩ := c
  obtain ⟨R, W, hfp, hc⟩ := h.print ht
  cases t with
  | ret a => exact absurd rfl hne
  | load p k => obtain ⟨_, v, hv, _⟩ := hc; exact ⟨_, .load ht hv⟩
  | store p v k => obtain ⟨_, ⟨w, hw⟩, _⟩ := hc; exact ⟨_, .store ht hw⟩
  | assertFail => exact hc.elim
  | ub => exact hc.elim

theorem SafeG.access {fp : Prints} {c : Pool T} (h : SafeG fp c) {i : Nat} {p : Ptr} {w : Bool} (hn : NextAccess c i p w) :
    ∃ R W, fp[i]? = some (R, W) ∧ (R p ∨ W p) ∧ (w = true → W p) := by
  rcases hn with ⟨rfl, k, hk⟩ | ⟨rfl, v, k, hk⟩
  · obtain ⟨R, W, hfp, hc⟩ := h.print hk
    exact ⟨R, W, hfp, .inl hc.1, fun h => by cases h⟩
  · obtain ⟨R, W, hfp, hc⟩ := h.print hk
    exact ⟨R, W, hfp, .inr hc.1, fun _ => hc.1⟩

theorem SafeG.no_race {fp : Prints} (hsep : Separate fp) {c : Pool T} (h : SafeG fp c) : ¬ Racing c := by
  rintro ⟨i, j, p, w, w', hij, hi, hj, hw⟩
  obtain ⟨R, W, hfp, hp, hW⟩ := h.access hi
  obtain ⟨R', W', hfp', hp', hW'⟩ := h.access hj
  rcases hw with hw | hw
  · have := hsep i j R W R' W' hij hfp hfp' p (hW hw)
    tauto
  · have := hsep j i R' W' R W (fun e => hij e.symm) hfp' hfp p (hW' hw)
    tauto

/-- Steps of different threads commute. -/
theorem diamondG {fp : Prints} (hsep : Separate fp) {c c1 c2 : Pool T} (h : SafeG fp c) {i j : Nat} (hne : i ≠ j) (h1 : Step c i c1) (h2 : Step c j c2) :
    ∃ c', Step c1 j c' ∧ Step c2 i c' := by
  have hne' : j ≠ i := fun e => hne e.symm
  cases h1 with
  | load ht hv =>
    cases h2 with
    | load ht' hv' =>
      refine ⟨_, .load (set_ne hne _ ht') hv', ?_⟩
      rw [List.set_comm _ _ hne]
      exact .load (set_ne hne' _ ht) hv
    | store ht' hv' =>
      obtain ⟨R, W, hfp, hc⟩ := h.print ht
      obtain ⟨R', W', hfp', hc'⟩ := h.print ht'
      have hpq := hsep j i R' W' R W hne' hfp' hfp _ hc'.1
      refine ⟨_, .store (set_ne hne _ ht') hv', ?_⟩
      rw [List.set_comm _ _ hne]
      refine .load (set_ne hne' _ ht) ?_
      rw [St.get?_setCell hv', if_neg]
      · exact hv
      · rintro rfl; exact hpq.1 hc.1
  | store ht hv =>
    cases h2 with
    | load ht' hv' =>
      obtain ⟨R, W, hfp, hc⟩ := h.print ht
      obtain ⟨R', W', hfp', hc'⟩ := h.print ht'
      have hpq := hsep i j R W R' W' hne hfp hfp' _ hc.1
      rename_i w
      refine ⟨_, .load (v := w) (set_ne hne _ ht') ?_, ?_⟩
      · rw [St.get?_setCell hv, if_neg]
        · exact hv'
        · rintro rfl; exact hpq.1 hc'.1
      · rw [List.set_comm _ _ hne]
        exact .store (set_ne hne' _ ht) hv
    | store ht' hv' =>
      obtain ⟨R, W, hfp, hc⟩ := h.print ht
      obtain ⟨R', W', hfp', hc'⟩ := h.print ht'
      have hpq := hsep i j R W R' W' hne hfp hfp' _ hc.1
      rename_i p v w k q v' w' k'
      have hpne : p ≠ q := by rintro rfl; exact hpq.2 hc'.1
      refine ⟨_, .store (w := w') (set_ne hne _ ht') ?_, ?_⟩
      · rw [St.get?_setCell hv, if_neg (fun e => hpne e.symm)]; exact hv'
      · rw [List.set_comm _ _ hne, St.setCell_comm (St.get?_eq_some.mp hv) (St.get?_eq_some.mp hv') hpne]
        exact .store (w := w) (set_ne hne' _ ht) (by rw [St.get?_setCell hv', if_neg hpne]; exact hv)

theorem step_towardG {fp : Prints} (hsep : Separate fp) {f : Pool T} (hf : Finished f) (n : Nat) (c c1 : Pool T) (i : Nat) (h : SafeG fp c)
    (hs : Step c i c1) (hr : RunN c n f) : ∃ m, n = m + 1 ∧ RunN c1 m f := by
  induction n generalizing c c1 i with
  | zero =>
    obtain ⟨is, hlen, hr⟩ := hr
    match is, hlen, hr with
    | [], _, .nil => exact (finished_no_step hf hs).elim
  | succ n ih =>
    obtain ⟨is, hlen, hr⟩ := hr
    match is, hlen, hr with
    | j :: is, hlen, .cons (c1 := c2) hs2 hr2 =>
      by_cases hij : i = j
      · subst hij
        rw [step_det hs hs2]
        exact ⟨n, rfl, is, by simpa using hlen, hr2⟩
      · obtain ⟨c', h1, h2⟩ := diamondG hsep h hij hs hs2
        obtain ⟨m, hm, is', hl', hr'⟩ := ih c2 c' i (h.step hsep hs2) h2 ⟨is, by simpa using hlen, hr2⟩
        exact ⟨n, rfl, j :: is', by simp [hl', hm], .cons h1 hr'⟩

theorem run_towardG {fp : Prints} (hsep : Separate fp) {f : Pool T} (hf : Finished f) (n : Nat) (c d : Pool T) (is : List Nat) (h : SafeG fp c)
    (hs : Run c is d) (hr : RunN c n f) : ∃ m, n = is.length + m ∧ RunN d m f := by
  induction hs generalizing n with
  | nil => exact ⟨n, by simp, hr⟩
  | cons h1 h2 ih =>
    obtain ⟨m, hm, hr'⟩ := step_towardG hsep hf n _ _ _ h h1 hr
    obtain ⟨m', hm', hr''⟩ := ih m (h.step hsep h1) hr'
    exact ⟨m', by simp only [List.length_cons]; omega, hr''⟩

theorem exec_runG {R W : Ptr → Prop} (t : Prog T Unit) (m : St T) (ts : List (Prog T Unit)) (i : Nat) (ht : ts[i]? = some t) (hc : Goes R W t m)
    (hsch : m.sched = []) : ∃ m' is, t.exec m = .ok () m' ∧ Run ⟨m, ts⟩ is ⟨m', ts.set i (.ret ())⟩ ∧ m'.sched = [] := by
  induction t generalizing m ts with
  | ret a =>
    refine ⟨m, [], rfl, ?_, hsch⟩
    have : ts.set i (.ret ()) = ts := by
      obtain ⟨hlt, he⟩ := List.getElem?_eq_some_iff.mp ht
      rw [← he]
      exact List.set_getElem_self hlt
    rw [this]
    exact .nil
  | load p k ih =>
    obtain ⟨_, v, hv, hg⟩ := hc
    have hi := (List.getElem?_eq_some_iff.mp ht).1
    obtain ⟨m', is, h1, h2, h3⟩ := ih v m (ts.set i (k v)) (by simp [hi]) hg hsch
    exact ⟨m', i :: is, by rw [exec_load hv]; exact h1, .cons (.load ht hv) (by simpa using h2), h3⟩
  | store p v k ih =>
    obtain ⟨_, ⟨w, hw⟩, hg⟩ := hc
    have hi := (List.getElem?_eq_some_iff.mp ht).1
    obtain ⟨m', is, h1, h2, h3⟩ := ih (m.setCell p (.obj v)) (ts.set i k) (by simp [hi]) hg (by rw [St.sched_setCell]; exact hsch)
    exact ⟨m', i :: is, by rw [exec_store hw hsch]; exact h1, .cons (.store ht hw) (by simpa using h2), h3⟩
  | assertFail => exact hc.elim
  | ub => exact hc.elim

/-- Everything about the schedules, given that running the threads in turn is one of them. -/
theorem schedulesG (fp : Prints) (hsep : Separate fp) (ts : List (Prog T Unit)) (m m' : St T) (h : SafeG fp ⟨m, ts⟩) (is0 : List Nat)
    (hrun : Run ⟨m, ts⟩ is0 ⟨m', ts.map (fun _ => .ret ())⟩) : ∀ is c, Run ⟨m, ts⟩ is c →
      is.length ≤ is0.length ∧ (Finished c ↔ is.length = is0.length) ∧ (Finished c → c.mem = m') := by
  have hfin : Finished (⟨m', ts.map (fun _ => .ret ())⟩ : Pool T) := by
    intro t ht
    obtain ⟨_, _, rfl⟩ := List.mem_map.mp ht
    rfl
  intro is c hr
  obtain ⟨k, hk, js, hjs, hr'⟩ := run_towardG hsep hfin is0.length _ c is h hr ⟨is0, rfl, hrun⟩
  have hzero : k = 0 → c = ⟨m', ts.map (fun _ => .ret ())⟩ := by
    intro h0
    rw [h0] at hjs
    match js, hjs, hr' with
    | [], _, .nil => rfl
  have hfin0 : Finished c → k = 0 := by
    intro hf
    match js, hjs, hr' with
    | [], hjs, _ => simpa using hjs.symm
    | _ :: _, _, .cons hs _ => exact (finished_no_step hf hs).elim
  exact ⟨by omega, ⟨fun hf => by have := hfin0 hf; omega, fun hl => by rw [hzero (by omega)]; exact hfin⟩, fun hf => by rw [hzero (hfin0 hf)]⟩

end MultiArray
