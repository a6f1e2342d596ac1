import Verif.Lemmas.AvoidCmd
import Verif.Props.ProgX

/- One worker of a parallel section, running alone. -/
set_option autoImplicit false

namespace MultiArray
open Spec Props
variable {T α β : Type}

theorem spares_elim {B : Nat → Prop} {x : Code T α} {f : α → Code T β} {h : Code T β} {s : St T} (hx : x.Spares B s)
    (hf : ∀ a s', x.exec s = .ok a s' → (f a).Spares B s') (hh : ∀ s', x.exec s = .throw s' → h.Spares B s') : (Code.elim x f h).Spares B s := by
  induction x generalizing s with
  | ret a => exact hf a s rfl
  | throw => exact hh s rfl
  | assertFail => trivial
  | ub => trivial
  | load p k ih =>
    simp only [Code.elim, Code.Spares] at hx ⊢
    simp only [Code.exec] at hf hh
    cases e : MultiArray.load p s with
    | ok v s' => rw [e] at hx hf hh; exact ih v hx hf hh
    | throw s' => trivial
    | assertFail s' => trivial
    | ub => trivial
  | store p v k h' ih ih' =>
    simp only [Code.elim, Code.Spares] at hx ⊢
    simp only [Code.exec] at hf hh
    refine ⟨hx.1, ?_⟩
    have hx := hx.2
    cases e : assignCell p v s with
    | ok a s' => rw [e] at hx hf hh; exact ih hx hf hh
    | throw s' => rw [e] at hx hf hh; exact ih' hx hf hh
    | assertFail s' => trivial
    | ub => trivial
  | construct v p k h' ih ih' =>
    simp only [Code.elim, Code.Spares] at hx ⊢
    simp only [Code.exec] at hf hh
    refine ⟨hx.1, ?_⟩
    have hx := hx.2
    cases e : constructCell v p s with
    | ok a s' => rw [e] at hx hf hh; exact ih hx hf hh
    | throw s' => rw [e] at hx hf hh; exact ih' hx hf hh
    | assertFail s' => trivial
    | ub => trivial
  | destroy p k ih =>
    simp only [Code.elim, Code.Spares] at hx ⊢
    simp only [Code.exec] at hf hh
    refine ⟨hx.1, ?_⟩
    have hx := hx.2
    cases e : destroyCell p s with
    | ok a s' => rw [e] at hx hf hh; exact ih hx hf hh
    | throw s' => trivial
    | assertFail s' => trivial
    | ub => trivial
  | alloc al n k h' ih ih' =>
    simp only [Code.elim, Code.Spares] at hx ⊢
    simp only [Code.exec] at hf hh
    cases e : allocate al n s with
    | ok p s' => rw [e] at hx hf hh; exact ih p hx hf hh
    | throw s' => rw [e] at hx hf hh; exact ih' hx hf hh
    | assertFail s' => trivial
    | ub => trivial
  | dealloc al p n k ih =>
    simp only [Code.elim, Code.Spares] at hx ⊢
    simp only [Code.exec] at hf hh
    refine ⟨hx.1, ?_⟩
    have hx := hx.2
    cases e : deallocate al p n s with
    | ok a s' => rw [e] at hx hf hh; exact ih hx hf hh
    | throw s' => trivial
    | assertFail s' => trivial
    | ub => trivial

theorem spares_bind {B : Nat → Prop} {x : Code T α} {f : α → Code T β} {s : St T} (hx : x.Spares B s)
    (hf : ∀ a s', x.exec s = .ok a s' → (f a).Spares B s') : (x >>= f).Spares B s := spares_elim hx hf (fun _ _ => trivial)

/-- What code that avoids `B` returns. -/
theorem avoids_exec {B : Nat → Prop} {Q : α → Prop} {x : Code T α} (h : x.Avoids B Q) {s : St T} (hB : ∀ b, B b → b < s.next) {a : α} {s' : St T} (he : x.exec s = .ok a s') :
    Q a ∧ s.next ≤ s'.next := by
  obtain ⟨hassign, hcons⟩ := cell_next (T := T)
  induction x generalizing s with
  | ret a => cases he; exact ⟨h, Nat.le_refl _⟩
  | throw => cases he
  | assertFail => cases he
  | ub => cases he
  | load p k ih =>
    simp only [Code.exec] at he
    cases e : MultiArray.load p s with
    | ok v s1 =>
      rw [e] at he
      have : s1 = s := by
        unfold MultiArray.load at e
        split at e <;> cases e
        rfl
      subst this
      exact ih v (h v) hB he
    | throw s1 => rw [e] at he; cases he
    | assertFail s1 => rw [e] at he; cases he
    | ub => rw [e] at he; cases he
  | store p v k h' ih ih' =>
    simp only [Code.exec] at he
    cases e : assignCell p v s with
    | ok a s1 =>
      rw [e] at he
      have hn := (hassign p v s).1 s1 e
      rw [← hn]; exact ih h.2.1 (fun b hb => by rw [hn]; exact hB b hb) he
    | throw s1 =>
      rw [e] at he
      have hn := (hassign p v s).2 s1 e
      rw [← hn]; exact ih' h.2.2 (fun b hb => by rw [hn]; exact hB b hb) he
    | assertFail s1 => rw [e] at he; cases he
    | ub => rw [e] at he; cases he
  | construct v p k h' ih ih' =>
    simp only [Code.exec] at he
    cases e : constructCell v p s with
    | ok a s1 =>
      rw [e] at he
      have hn := (hcons p v s).1 s1 e
      rw [← hn]; exact ih h.2.1 (fun b hb => by rw [hn]; exact hB b hb) he
    | throw s1 =>
      rw [e] at he
      have hn := (hcons p v s).2 s1 e
      rw [← hn]; exact ih' h.2.2 (fun b hb => by rw [hn]; exact hB b hb) he
    | assertFail s1 => rw [e] at he; cases he
    | ub => rw [e] at he; cases he
  | destroy p k ih =>
    simp only [Code.exec] at he
    cases e : destroyCell p s with
    | ok a s1 =>
      rw [e] at he
      have hn : s1.next = s.next := by
        unfold destroyCell at e
        split at e <;> cases e
        unfold St.setCell; split <;> rfl
      rw [← hn]; exact ih h.2 (fun b hb => by rw [hn]; exact hB b hb) he
    | throw s1 => rw [e] at he; cases he
    | assertFail s1 => rw [e] at he; cases he
    | ub => rw [e] at he; cases he
  | alloc al n k h' ih ih' =>
    simp only [Code.exec] at he
    cases e : allocate al n s with
    | ok p s1 =>
      rw [e] at he
      unfold allocate at e
      split at e
      · cases e
      · cases e
        have := ih _ (h.1 _ (fun hb => absurd (hB _ hb) (Nat.lt_irrefl _))) (fun b hb => Nat.lt_succ_of_lt (hB b hb)) he
        exact ⟨this.1, Nat.le_of_succ_le this.2⟩
    | throw s1 =>
      rw [e] at he
      unfold allocate at e
      split at e
      · cases e
        rename_i fs _
        exact ih' (s := ⟨s.heap, s.next, fs⟩) h.2 hB he
      · cases e
    | assertFail s1 => rw [e] at he; cases he
    | ub => rw [e] at he; cases he
  | dealloc al p n k ih =>
    simp only [Code.exec] at he
    cases e : deallocate al p n s with
    | ok a s1 =>
      rw [e] at he
      have hn : s1.next = s.next := by
        unfold deallocate at e
        split at e
        · cases e
        · split at e <;> cases e
          rfl
      rw [← hn]; exact ih h.2 (fun b hb => by rw [hn]; exact hB b hb) he
    | throw s1 => rw [e] at he; cases he
    | assertFail s1 => rw [e] at he; cases he
    | ub => rw [e] at he; cases he

/-- A client running alone, from any state, that only changes the variables in `S`. -/
theorem client_runFrom (dbg : Bool) (dflt : T) (eq lt : T → T → Bool) (k : Client T) (A0 : AState T) (hk : k.LegalFrom dflt eq lt A0) (S : Nat → Bool)
    (hS : ∀ tr A' c x, k.ReachesFrom dflt eq lt A0 tr A' → k tr = some c → c.changes = some x → S x = true) (B : Nat → Prop) (o0 : Objs) (n : Nat) {tr : Trace T}
    {L : List Nat} {w : World T} {A : AState T} (hr : k.ReachesFrom dflt eq lt A0 tr A) (h : InvX L w A) (hL : L.length ≤ thrownAllocs tr) {m : Nat} (hm : throws tr + due w.st ≤ m)
    (hB : ∀ b, B b → b < w.st.next) (ho : ObjsFree B S o0 w.objs) :
    ∃ tr' L' w' A', throws tr' + due w'.st ≤ m ∧ k.run dbg dflt eq lt n tr w = some (tr', w') ∧ k.ReachesFrom dflt eq lt A0 tr' A' ∧ InvX L' w' A' ∧
      L'.length ≤ thrownAllocs tr' ∧ (tr'.length = tr.length + n ∨ k tr' = none) ∧ ObjsFree B S o0 w'.objs ∧ (k.code dbg dflt eq lt n tr w.objs).Spares B w.st := by
  induction n generalizing tr L w A with
  | zero => exact ⟨tr, L, w, A, hm, rfl, hr, h, hL, .inl rfl, ho, trivial⟩
  | succ n ih =>
    cases hc : k tr with
    | none => exact ⟨tr, L, w, A, hm, by simp only [Client.run, hc], hr, h, hL, .inr hc, ho, by simp only [Client.code, hc]; trivial⟩
    | some c =>
      have hav := avoids_cmd ho dbg dflt eq lt c (fun x hx => hS tr A c x hr hc hx)
      have hsp := avoids_spares hav hB
      have hag := codeAgrees_cmd dbg dflt eq lt w c
      rcases cmd_x dbg dflt eq lt h c (hk tr A c hr hc) with ⟨o, A1, w1, e1, e2, e3⟩ | ⟨w1, L1, A1, e1, e2, e3, e4⟩
      · rw [e2] at hag
        have hag : (c.code dbg dflt eq lt w.objs).exec w.st = .ok (some o, w1.objs) w1.st := hag
        obtain ⟨g1, g2⟩ := avoids_exec hav hB hag
        obtain ⟨tr', L', w', A', f0, f1, f2, f3, f4, f5, f6, f7⟩ := ih (hr.done hc e1) e3 (by rw [thrownAllocs_snoc]; omega)
          (by have := fair_done dbg dflt eq lt e2; rw [throws_snoc]; simp; omega) (fun b hb => Nat.lt_of_lt_of_le (hB b hb) g2) g1
        refine ⟨tr', L', w', A', f0, by simp only [Client.run, hc, e2]; exact f1, f2, f3, f4, ?_, f6, ?_⟩
        · rw [List.length_append] at f5
          rcases f5 with f5 | f5
          · exact .inl (by rw [f5]; simp; omega)
          · exact .inr f5
        · simp only [Client.code, hc]
          refine spares_bind hsp fun a s' he => ?_
          rw [hag] at he; cases he
          exact f7
      · rw [e1] at hag
        have hag : (c.code dbg dflt eq lt w.objs).exec w.st = .ok (none, w1.objs) w1.st := hag
        obtain ⟨g1, g2⟩ := avoids_exec hav hB hag
        obtain ⟨tr', L', w', A', f0, f1, f2, f3, f4, f5, f6, f7⟩ := ih (hr.threw hc e2) e3
          (by rw [thrownAllocs_snoc]; cases hca : c.allocates <;> simp [hca] at e4 ⊢ <;> omega)
          (by have := fair_threw dbg dflt eq lt e1; rw [throws_snoc]; simp; omega) (fun b hb => Nat.lt_of_lt_of_le (hB b hb) g2) g1
        refine ⟨tr', L', w', A', f0, by simp only [Client.run, hc, e1]; exact f1, f2, f3, f4, ?_, f6, ?_⟩
        · rw [List.length_append] at f5
          rcases f5 with f5 | f5
          · exact .inl (by rw [f5]; simp; omega)
          · exact .inr f5
        · simp only [Client.code, hc]
          refine spares_bind hsp fun a s' he => ?_
          rw [hag] at he; cases he
          exact f7

theorem run_length_le (dbg : Bool) (dflt : T) (eq lt : T → T → Bool) (k : Client T) (n : Nat) {tr tr' : Trace T} {w w' : World T}
    (h : k.run dbg dflt eq lt n tr w = some (tr', w')) : tr'.length ≤ tr.length + n := by
  induction n generalizing tr w with
  | zero => simp only [Client.run] at h; cases h; exact Nat.le_refl _
  | succ n ih =>
    simp only [Client.run] at h
    split at h
    · cases h; omega
    · split at h
      · have := ih h; simp at this; omega
      · have := ih h; simp at this; omega
      · cases h

/-- A worker alone starts with what it sees, and nothing else. -/
theorem alone_inv {w : World T} {A : AState T} (h : w.Holding A) (t : Worker T) : InvX [] (t.alone w) (t.view A) := by
  have hobj : ∀ x a, t.objs w.objs x = some a → t.sees x = true ∧ w.objs x = some a := by
    intro x a hx
    unfold Worker.objs at hx
    split at hx
    · exact ⟨by assumption, hx⟩
    · cases hx
  have hheap : ∀ x a, t.objs w.objs x = some a → (t.alone w).st.heap a.ref.data.blk = w.st.heap a.ref.data.blk := by
    intro x a hx
    exact if_pos ⟨x, a, hx, rfl⟩
  have hsane : SaneHeap (⟨(t.alone w).st.heap, w.st.next, []⟩ : St T) := by
    refine ⟨h.null.1, fun b hb => ?_⟩
    show (t.alone w).st.heap b = none
    unfold Worker.alone
    dsimp only
    split
    · exact h.free b hb
    · rfl
  have hlive : ∀ x a, t.objs w.objs x = some a → ∃ abs, t.view A x = some abs ∧ Represents (⟨(t.alone w).st.heap, w.st.next, []⟩ : St T) a abs := by
    intro x a hx
    obtain ⟨h1, h2⟩ := hobj x a hx
    cases hA : A x with
    | none => rw [(h.vars x).mpr hA] at h2; cases h2
    | some abs =>
      have hh := h.holds x a abs h2 hA
      exact ⟨abs, by unfold Worker.view; rw [if_pos h1]; exact hA, hh.owns.mono (hheap x a hx), hh.bases, hh.extents, hh.order, hsane, rfl⟩
  refine ⟨⟨(t.alone w).st.heap, w.st.next, []⟩, ⟨rfl, rfl, fun _ hb => (nomatch hb), fun _ _ => rfl⟩, ⟨⟨hsane, ?_, ?_⟩, ?_, rfl, hlive, ?_⟩⟩
  · intro x a hx
    obtain ⟨abs, _, hr⟩ := hlive x a hx
    exact ⟨_, _, hr.owns⟩
  · intro x y a b hx hy he
    exact Classical.byContradiction fun hne => h.apart x y a b (hobj x a hx).2 (hobj y b hy).2 hne he
  · intro b hb
    have hb : (t.alone w).st.heap b ≠ none := hb
    unfold Worker.alone at hb
    dsimp only at hb
    split at hb
    · next e => exact e
    · exact absurd rfl hb
  · intro x hx
    unfold Worker.view
    split
    · next e =>
      have hx : (if t.sees x then w.objs x else none) = none := hx
      rw [if_pos e] at hx
      exact (h.vars x).mp hx
    · rfl

/-- What a worker does alone. -/
structure WorkerSolo (dbg : Bool) (dflt : T) (eq lt : T → T → Bool) (w : World T) (A : AState T) (t : Worker T) (B : Nat → Prop) (R : Trace T × World T) (A1 : AState T) (L : List Nat) : Prop where
  run : t.client.run dbg dflt eq lt t.count [] (t.alone w) = some R
  reach : t.client.ReachesFrom dflt eq lt (t.view A) R.1 A1
  len : R.1.length ≤ t.count
  stop : R.1.length = t.count ∨ t.client R.1 = none
  throws : throws R.1 ≤ (t.sched.filter Option.isSome).length
  vars : ∀ x, R.2.objs x = none ↔ A1 x = none
  holds : ∀ x a abs, R.2.objs x = some a → A1 x = some abs → Holds R.2.st a abs
  apart : ∀ x y a b, R.2.objs x = some a → R.2.objs y = some b → x ≠ y → a.ref.data.blk ≠ b.ref.data.blk
  leaks : L.length ≤ thrownAllocs R.1
  owned : ∀ b, R.2.st.heap b ≠ none → b ∈ L ∨ ∃ x a, R.2.objs x = some a ∧ a.ref.data.blk = b
  free : ObjsFree B t.owns (t.objs w.objs) R.2.objs
  spares : (t.client.code dbg dflt eq lt t.count [] (t.objs w.objs)).Spares B (t.alone w).st

theorem worker_solo (dbg : Bool) (dflt : T) (eq lt : T → T → Bool) {w : World T} {A : AState T} (h : w.Holding A) {t : Worker T} (ht : t.Legal dflt eq lt A) (B : Nat → Prop)
    (hB : ∀ b, B b → b < w.st.next) (hfree : ∀ x a, t.owns x = true → w.objs x = some a → ¬ B a.ref.data.blk) :
    ∃ R A1 L, WorkerSolo dbg dflt eq lt w A t B R A1 L := by
  have ho : ObjsFree B t.owns (t.objs w.objs) (t.alone w).objs := by
    refine ⟨fun x a hx ha => ?_, fun _ _ => rfl⟩
    have ha : (if t.sees x then w.objs x else none) = some a := ha
    split at ha
    · have hb := hfree x a hx ha
      cases hA : A x with
      | none => rw [(h.vars x).mpr hA] at ha; cases ha
      | some abs =>
        have hown := (h.holds x a abs ha hA).owns.own
        exact ⟨hb, by rw [hown]; exact hb⟩
    · cases ha
  obtain ⟨tr, L, w', A', e0, e1, e2, ⟨s, hc, hr⟩, e4, e5, e6, e7⟩ := client_runFrom dbg dflt eq lt t.client (t.view A) ht.1 t.owns ht.2.1 B (t.objs w.objs) t.count Client.ReachesFrom.start
    (alone_inv h t) (Nat.le_refl 0) (m := (t.sched.filter Option.isSome).length) (by show 0 + _ ≤ _; rw [Nat.zero_add]; exact Nat.le_refl _) hB ho
  refine ⟨(tr, w'), A', L, e1, e2, by simpa using run_length_le dbg dflt eq lt t.client t.count e1, by simpa using e5, by show throws tr ≤ _; omega, ?_, ?_, ?_, e4, ?_, e6, e7⟩
  · intro x
    refine ⟨hr.dead x, fun hA => ?_⟩
    cases hx : w'.objs x with
    | none => rfl
    | some a =>
      obtain ⟨abs, h1, _⟩ := hr.live x a hx
      rw [hA] at h1; cases h1
  · intro x a abs hx hA
    obtain ⟨abs', h1, h2⟩ := hr.live x a hx
    rw [hA] at h1; cases h1
    exact ⟨hc.owns h2.owns, h2.bases, h2.extents, h2.order⟩
  · intro x y a b hx hy hne
    exact fun he => hne (hr.valid.distinct x y a b hx hy he)
  · intro b hb
    by_cases hbL : b ∈ L
    · exact .inl hbL
    · right
      exact hr.noLeak b (by show s.heap b ≠ none; rw [hc.same b hbL]; exact hb)

end MultiArray
