import Verif.Lemmas.Fork
import Verif.Props.Threads

/-
Property theorems C84: parallel sections.  A program divides its arrays among threads, which may read other arrays in common; when all threads have ended the program goes on with all
arrays.
-/
set_option autoImplicit false

namespace MultiArray.Props
open MultiArray Spec
variable {T : Type}

/-- The blocks of the variables that worker `i` sees but does not own. -/
def sharedBlocks (w : World T) (workers : List (Worker T)) (i b : Nat) : Prop :=
  ∃ (t : Worker T) (x : Nat) (a : MArr), workers[i]? = some t ∧ t.sees x = true ∧ t.owns x = false ∧ w.objs x = some a ∧ a.ref.data.blk = b

/-- What worker `i` starts with, alone. -/
noncomputable def aloneMem (w : World T) (workers : List (Worker T)) (i : Nat) : St T :=
  match workers[i]? with
  | some t => (t.alone w).st
  | none => ⟨fun _ => none, 1, []⟩

theorem aloneMem_some {w : World T} {workers : List (Worker T)} {i : Nat} {t : Worker T} (h : workers[i]? = some t) : aloneMem w workers i = (t.alone w).st := by
  unfold aloneMem; rw [h]

theorem alone_heap {w : World T} {t : Worker T} {b : Nat} (h : (t.alone w).st.heap b ≠ none) :
    (∃ x a, t.sees x = true ∧ w.objs x = some a ∧ a.ref.data.blk = b) ∧ (t.alone w).st.heap b = w.st.heap b := by
  unfold Worker.alone at h ⊢
  dsimp only at h ⊢
  split at h
  · next e =>
    rw [if_pos e]
    obtain ⟨x, a, hx, hb⟩ := e
    unfold Worker.objs at hx
    split at hx
    · exact ⟨⟨x, a, by assumption, hx, hb⟩, rfl⟩
    · cases hx
  · exact absurd rfl h

theorem alone_heap_of {w : World T} {t : Worker T} {x : Nat} {a : MArr} (hs : t.sees x = true) (hx : w.objs x = some a) :
    (t.alone w).st.heap a.ref.data.blk = w.st.heap a.ref.data.blk := by
  unfold Worker.alone
  exact if_pos ⟨x, a, by unfold Worker.objs; rw [if_pos hs]; exact hx, rfl⟩

theorem fork_thread {dbg : Bool} {dflt : T} {eq lt : T → T → Bool} {w : World T} {workers : List (Worker T)} {i : Nat} {th : CThread T (Trace T × Objs)}
    (h : (Section.fork dbg dflt eq lt w workers).threads[i]? = some th) : ∃ t, workers[i]? = some t ∧ th = t.thread dbg dflt eq lt w := by
  unfold Section.fork at h
  rw [List.getElem?_map] at h
  cases ht : workers[i]? with
  | none => rw [ht] at h; cases h
  | some t => rw [ht] at h; cases h; exact ⟨t, rfl, rfl⟩

theorem fork_thread_of (dbg : Bool) (dflt : T) (eq lt : T → T → Bool) (w : World T) {workers : List (Worker T)} {i : Nat} {t : Worker T} (h : workers[i]? = some t) :
    (Section.fork dbg dflt eq lt w workers).threads[i]? = some (t.thread dbg dflt eq lt w) := by
  unfold Section.fork
  rw [List.getElem?_map, h]; rfl

/-- A live variable's block. -/
theorem holding_block {w : World T} {A : AState T} (h : w.Holding A) {x : Nat} {a : MArr} (hx : w.objs x = some a) : ∃ blk, w.st.heap a.ref.data.blk = some blk := by
  cases hA : A x with
  | none => rw [(h.vars x).mpr hA] at hx; cases hx
  | some abs => exact ⟨_, (h.holds x a abs hx hA).owns.block⟩

theorem holding_lt {w : World T} {A : AState T} (h : w.Holding A) {x : Nat} {a : MArr} (hx : w.objs x = some a) : a.ref.data.blk < w.st.next := by
  obtain ⟨blk, hb⟩ := holding_block h hx
  rcases Nat.lt_or_ge a.ref.data.blk w.st.next with h' | h'
  · exact h'
  · rw [h.free _ h'] at hb; cases hb

theorem fork_splits (dbg : Bool) (dflt : T) (eq lt : T → T → Bool) {w : World T} {A : AState T} (h : w.Holding A) {workers : List (Worker T)} (hleg : Section.Legal dflt eq lt A workers) :
    (Section.fork dbg dflt eq lt w workers).Splits (aloneMem w workers) (sharedBlocks w workers) := by
  refine ⟨fun i th hth => ?_, fun i j th th' b b' hth hth' hb hb' he => ?_, ⟨w.st.next, h.free⟩, h.null.2⟩
  · obtain ⟨t, ht, rfl⟩ := fork_thread hth
    rw [aloneMem_some ht]
    refine ⟨rfl, rfl, fun b blk hb => ?_⟩
    obtain ⟨⟨x, a, _, hx, rfl⟩, h2⟩ := alone_heap (w := w) (t := t) (b := b) (by rw [hb]; simp)
    exact ⟨holding_lt h hx, by show w.st.heap a.ref.data.blk = some blk; rw [← h2]; exact hb⟩
  · obtain ⟨t, ht, rfl⟩ := fork_thread hth
    obtain ⟨t', ht', rfl⟩ := fork_thread hth'
    have he : b = b' := he
    subst he
    by_cases hij : i = j
    · exact .inl ⟨hij, rfl⟩
    · right
      rw [aloneMem_some ht] at hb
      rw [aloneMem_some ht'] at hb'
      obtain ⟨⟨x, a, h1, h2, h3⟩, _⟩ := alone_heap hb
      obtain ⟨⟨y, a', h1', h2', h3'⟩, _⟩ := alone_heap hb'
      have hxy : x = y := Classical.byContradiction fun hne => h.apart x y a a' h2 h2' hne (by rw [h3, h3'])
      subst hxy
      have n1 : t.owns x = false := by
        cases ho : t.owns x with
        | false => rfl
        | true => rw [hleg.2 i j t t' x ht ht' hij ho] at h1'; cases h1'
      have n2 : t'.owns x = false := by
        cases ho : t'.owns x with
        | false => rfl
        | true => rw [hleg.2 j i t' t x ht' ht (Ne.symm hij) ho] at h1; cases h1
      exact ⟨⟨t, x, a, ht, h1, n1, h2, h3⟩, ⟨t', x, a', ht', h1', n2, h2', h3'⟩⟩

/-- What the workers do alone. -/
theorem section_solo (dbg : Bool) (dflt : T) (eq lt : T → T → Bool) {w : World T} {A : AState T} (hw : w.Holding A) {workers : List (Worker T)} (hleg : Section.Legal dflt eq lt A workers) :
    ∃ (R : Nat → Trace T × World T) (A1 : Nat → AState T) (L : Nat → List Nat),
      (∀ (i : Nat) (t : Worker T), workers[i]? = some t → WorkerSolo dbg dflt eq lt w A t (sharedBlocks w workers i) (R i) (A1 i) (L i)) ∧
      (∀ (i : Nat) (t : Worker T), workers[i]? = some t → (t.thread dbg dflt eq lt w).code.exec (aloneMem w workers i) = .ok ((R i).1, (R i).2.objs) (R i).2.st) ∧
      (∀ (i : Nat) (th : CThread T (Trace T × Objs)), (Section.fork dbg dflt eq lt w workers).threads[i]? = some th → th.code.Completes (aloneMem w workers i)) ∧
      ∀ (i : Nat) (th : CThread T (Trace T × Objs)), (Section.fork dbg dflt eq lt w workers).threads[i]? = some th →
        th.code.Spares (sharedBlocks w workers i) (aloneMem w workers i) := by
  have hsolo : ∀ i : Nat, ∃ (R : Trace T × World T) (A1 : AState T) (L : List Nat), ∀ t, workers[i]? = some t → WorkerSolo dbg dflt eq lt w A t (sharedBlocks w workers i) R A1 L := by
    intro i
    cases ht : workers[i]? with
    | none => exact ⟨([], World.start []), fun _ => none, [], fun t h => by cases h⟩
    | some t =>
      obtain ⟨R, A1, L, h⟩ := worker_solo dbg dflt eq lt hw (hleg.1 t (List.mem_of_getElem? ht)) (sharedBlocks w workers i)
        (fun b hb => by obtain ⟨_, x, a, _, _, _, hx, rfl⟩ := hb; exact holding_lt hw hx)
        (fun x a ho hx hb => by
          obtain ⟨t', y, a', ht', _, hno, hy, he⟩ := hb
          rw [ht] at ht'; cases ht'
          by_cases hxy : x = y
          · subst hxy; rw [ho] at hno; cases hno
          · exact hw.apart x y a a' hx hy hxy he.symm)
      exact ⟨R, A1, L, fun t' h' => by cases h'; exact h⟩
  choose R A1 L hR using hsolo
  have hexec : ∀ (i : Nat) (t : Worker T), workers[i]? = some t →
      (t.thread dbg dflt eq lt w).code.exec (aloneMem w workers i) = .ok ((R i).1, (R i).2.objs) (R i).2.st := by
    intro i t h
    rw [aloneMem_some h]
    exact exec_client dbg dflt eq lt t.client t.count (w := t.alone w) (hR i t h).run
  have hcomp : ∀ (i : Nat) (th : CThread T (Trace T × Objs)), (Section.fork dbg dflt eq lt w workers).threads[i]? = some th → th.code.Completes (aloneMem w workers i) := by
    intro i th hth
    obtain ⟨t, ht, rfl⟩ := fork_thread hth
    exact .inl ⟨_, _, hexec i t ht⟩
  have hspare : ∀ (i : Nat) (th : CThread T (Trace T × Objs)), (Section.fork dbg dflt eq lt w workers).threads[i]? = some th →
      th.code.Spares (sharedBlocks w workers i) (aloneMem w workers i) := by
    intro i th hth
    obtain ⟨t, ht, rfl⟩ := fork_thread hth
    rw [aloneMem_some ht]
    exact (hR i t ht).spares
  exact ⟨R, A1, L, hR, hexec, hcomp, hspare⟩

/-- A parallel section, from any state of the program `w` that holds the arrays `A`.  The program's variables are divided among the workers: each owns some variables (and names for new ones), which no other worker
sees, and may read others.  Each worker is a client program that may construct, destroy, resize, reindex, assign and read, that catches exceptions and respects the preconditions of the library.
Whatever the interleaving of the memory operations and the placement of new arrays: no two threads ever race and no thread is stuck; worker `i` ends after as many operations as it would
perform alone; storage that is not owned by a worker is never changed; and a worker that has ended has done what it would have done alone with what it saw at the start, which is a possible run of the
abstract machine.  When all have ended, the program holds exactly the arrays that the workers left according to the abstract machine, each in storage of its own,
and at most one block of storage per construction or resize that threw has been lost. -/
theorem C84_parallel_section (dbg : Bool) (dflt : T) (eq lt : T → T → Bool) {w : World T} {A : AState T} (hw : w.Holding A) (workers : List (Worker T))
    (hleg : Section.Legal dflt eq lt A workers) {is : List Nat} {c : CPool T (Trace T × Objs)} (hr : CRun (Section.fork dbg dflt eq lt w workers) is c) :
    ¬ c.Racing ∧
    (∀ (i : Nat) (th : CThread T (Trace T × Objs)), c.threads[i]? = some th → ¬ th.Ended → ∃ c2, CStep c i c2) ∧
    (∀ (i : Nat) (t : Worker T) (th : CThread T (Trace T × Objs)), workers[i]? = some t → c.threads[i]? = some th →
      is.count i ≤ (t.thread dbg dflt eq lt w).code.steps (t.alone w).st ∧ (th.Ended ↔ is.count i = (t.thread dbg dflt eq lt w).code.steps (t.alone w).st)) ∧
    (∀ a, w.st.heap a ≠ none → (∀ t ∈ workers, ∀ x m, t.owns x = true → w.objs x = some m → m.ref.data.blk ≠ a) → c.heap a = w.st.heap a) ∧
    (∀ (i : Nat) (t : Worker T) (th : CThread T (Trace T × Objs)), workers[i]? = some t → c.threads[i]? = some th → th.Ended →
      ∃ tr w1 A1, t.client.run dbg dflt eq lt t.count [] (t.alone w) = some (tr, w1) ∧ th.code = .ret (tr, w1.objs) ∧ t.client.ReachesFrom dflt eq lt (t.view A) tr A1 ∧
        (tr.length = t.count ∨ t.client tr = none) ∧ throws tr ≤ (t.sched.filter Option.isSome).length) ∧
    (c.Ended → ∃ trs w', Section.Joins w workers c trs w') ∧
    ∀ trs w', Section.Joins w workers c trs w' → ∃ A', Section.Reaches dflt eq lt A workers trs A' ∧ w'.Holding A' ∧
      ∃ L : List Nat, L.length ≤ (trs.map thrownAllocs).sum ∧ ∀ a, w'.st.heap a ≠ none → a ∈ L ∨ (∃ x m, w'.objs x = some m ∧ m.ref.data.blk = a) ∨
        (w.st.heap a ≠ none ∧ ∀ x m, w.objs x = some m → m.ref.data.blk ≠ a) := by
  have hs := fork_splits dbg dflt eq lt hw hleg
  -- the workers alone
  obtain ⟨R, A1, L, hR, hexec, hcomp, hspare⟩ := section_solo dbg dflt eq lt hw hleg
  obtain ⟨g1, g2, g3, g4, _⟩ := C83_isolated_threads hs hcomp hspare hr
  obtain ⟨ms', r⟩ := run_sim hs hcomp hspare hr
  have hlen : c.threads.length = workers.length := by rw [r.len]; simp [Section.fork]
  -- the final memory of a worker that has ended
  have hend : ∀ (i : Nat) (t : Worker T) (th : CThread T (Trace T × Objs)), workers[i]? = some t → c.threads[i]? = some th → th.Ended →
      th.code = .ret ((R i).1, (R i).2.objs) ∧ ms' i = (R i).2.st := by
    intro i t th ht hth hE
    have e := (r.thread i _ th (fork_thread_of dbg dflt eq lt w ht) hth).1
    rw [hexec i t ht] at e
    rcases hE with ⟨v, hv⟩ | hv
    · rw [hv] at e
      simp only [Code.exec, Out.ok.injEq] at e
      rw [hv, e.1]; exact ⟨rfl, e.2⟩
    · rw [hv] at e
      simp only [Code.exec] at e
      cases e
  -- a shared block is where it was
  have hshared : ∀ (i : Nat) (t : Worker T) (th : CThread T (Trace T × Objs)) (x : Nat) (a : MArr), workers[i]? = some t → c.threads[i]? = some th → t.sees x = true → t.owns x = false →
      w.objs x = some a → th.env a.ref.data.blk = a.ref.data.blk ∧ (ms' i).heap a.ref.data.blk = w.st.heap a.ref.data.blk ∧ (ms' i).heap a.ref.data.blk ≠ none := by
    intro i t th x a ht hth hsee hno hx
    obtain ⟨blk, hblk⟩ := holding_block hw hx
    have hl := alone_heap_of (w := w) hsee hx
    obtain ⟨e1, e2⟩ := (r.thread i _ th (fork_thread_of dbg dflt eq lt w ht) hth).2.2.2 a.ref.data.blk (by rw [aloneMem_some ht, hl, hblk]; simp) ⟨t, x, a, ht, hsee, hno, hx, rfl⟩
    rw [aloneMem_some ht, hl] at e2
    exact ⟨e1, e2, by rw [e2, hblk]; simp⟩
  -- an owned variable at the end is in storage of its own
  have hownfree : ∀ (i : Nat) (t : Worker T) (x : Nat) (a : MArr), workers[i]? = some t → t.owns x = true → (R i).2.objs x = some a → ¬ sharedBlocks w workers i a.ref.data.blk :=
    fun i t x a ht ho hx => ((hR i t ht).free.free x a ho hx).1
  have hlive : ∀ (i : Nat) (t : Worker T) (x : Nat) (a : MArr), workers[i]? = some t → (R i).2.objs x = some a → (R i).2.st.heap a.ref.data.blk ≠ none := by
    intro i t x a ht hx
    cases hA : A1 i x with
    | none => rw [((hR i t ht).vars x).mpr hA] at hx; cases hx
    | some abs => rw [((hR i t ht).holds x a abs hx hA).owns.block]; simp
  have huniq : ∀ (i j : Nat) (t t' : Worker T) (x : Nat), workers[i]? = some t → workers[j]? = some t' → t.owns x = true → t'.owns x = true → i = j := by
    intro i j t t' x ht ht' ho ho'
    refine Classical.byContradiction fun hne => ?_
    have h1 := hleg.2 i j t t' x ht ht' hne ho
    rw [(hleg.1 t' (List.mem_of_getElem? ht')).2.2 x ho'] at h1; cases h1
  -- what belongs to no owner is kept: it is foreign, or shared by a worker
  have hkeep : ∀ a, w.st.heap a ≠ none → (∀ t ∈ workers, ∀ x m, t.owns x = true → w.objs x = some m → m.ref.data.blk ≠ a) →
      ((Section.fork dbg dflt eq lt w workers).Foreign (aloneMem w workers) a) ∨
      ∃ (i : Nat) (t : Worker T) (x : Nat) (m : MArr), workers[i]? = some t ∧ t.sees x = true ∧ t.owns x = false ∧ w.objs x = some m ∧ m.ref.data.blk = a := by
    intro a ha hno
    by_cases hx : ∃ (i : Nat) (t : Worker T) (x : Nat) (m : MArr), workers[i]? = some t ∧ t.sees x = true ∧ w.objs x = some m ∧ m.ref.data.blk = a
    · obtain ⟨i, t, x, m, h1, h2, h3, h4⟩ := hx
      refine .inr ⟨i, t, x, m, h1, h2, ?_, h3, h4⟩
      cases ho : t.owns x with
      | false => rfl
      | true => exact absurd h4 (hno t (List.mem_of_getElem? h1) x m ho h3)
    · refine .inl ⟨ha, fun i th b hth hb he => ?_⟩
      obtain ⟨t, ht, rfl⟩ := fork_thread hth
      rw [aloneMem_some ht] at hb
      obtain ⟨⟨x, m, h1, h2, h3⟩, _⟩ := alone_heap hb
      exact hx ⟨i, t, x, m, ht, h1, h2, by rw [h3]; exact he⟩
  have hthr : ∀ (i : Nat) (t : Worker T), workers[i]? = some t → ∃ th, c.threads[i]? = some th := by
    intro i t ht
    have hi : i < workers.length := by
      rcases Nat.lt_or_ge i workers.length with h' | h'
      · exact h'
      · rw [List.getElem?_eq_none h'] at ht; cases ht
    exact ⟨_, List.getElem?_eq_getElem (by rw [hlen]; exact hi)⟩
  have hsame : ∀ a, w.st.heap a ≠ none → (∀ t ∈ workers, ∀ x m, t.owns x = true → w.objs x = some m → m.ref.data.blk ≠ a) → c.heap a = w.st.heap a := by
    intro a ha hno
    rcases hkeep a ha hno with hf | ⟨i, t, x, m, h1, h2, h3, h4, h5⟩
    · exact g4 a hf
    · obtain ⟨th, hth⟩ := hthr i t h1
      obtain ⟨e1, e2, e3⟩ := hshared i t th x m h1 hth h2 h3 h4
      rw [h5] at e1 e2 e3
      obtain ⟨blk, hblk⟩ := Option.ne_none_iff_exists'.mp e3
      have := ((r.splits.sees i th hth).block a blk hblk).2
      rw [e1] at this
      rw [this, ← e2, hblk]
  have hworker : ∀ (i : Nat) (th : CThread T (Trace T × Objs)), c.threads[i]? = some th → ∃ t, workers[i]? = some t := by
    intro i th hth
    have hi : i < c.threads.length := by
      rcases Nat.lt_or_ge i c.threads.length with h' | h'
      · exact h'
      · rw [List.getElem?_eq_none h'] at hth; cases hth
    exact ⟨_, List.getElem?_eq_getElem (by rw [← hlen]; exact hi)⟩
  refine ⟨g1, g2, fun i t th ht hth => ?_, hsame, fun i t th ht hth hE => ?_, fun hE => ?_, fun trs w' hj => ?_⟩
  · have := g3 i _ th (fork_thread_of dbg dflt eq lt w ht) hth
    rwa [aloneMem_some ht] at this
  · exact ⟨_, _, A1 i, (hR i t ht).run, (hend i t th ht hth hE).1, (hR i t ht).reach, (hR i t ht).stop, (hR i t ht).throws⟩
  · obtain ⟨N, hN⟩ := r.splits.space
    refine ⟨(List.range workers.length).map (fun i => (R i).1), ⟨open Classical in fun x =>
      if h : ∃ (i : Nat) (t : Worker T) (th : CThread T (Trace T × Objs)), workers[i]? = some t ∧ c.threads[i]? = some th ∧ t.owns x = true then
        ((R h.choose).2.objs x).map (fun a => a.placed h.choose_spec.choose_spec.choose.env) else w.objs x, ⟨c.heap, N + 1, []⟩⟩, by simp, rfl,
      fun b hb => hN b (by have : N + 1 ≤ b := hb; omega), Nat.succ_pos _, ?_, ?_⟩
    · intro i t th ht hth
      refine ⟨(R i).1, (R i).2.objs, ?_, (hend i t th ht hth (hE th (List.mem_of_getElem? hth))).1, fun x ho => ?_⟩
      · rw [List.getElem?_map, List.getElem?_range (by
          rcases Nat.lt_or_ge i workers.length with h' | h'
          · exact h'
          · rw [List.getElem?_eq_none h'] at ht; cases ht)]
        rfl
      · dsimp only
        have hx : ∃ (i : Nat) (t : Worker T) (th : CThread T (Trace T × Objs)), workers[i]? = some t ∧ c.threads[i]? = some th ∧ t.owns x = true := ⟨i, t, th, ht, hth, ho⟩
        rw [dif_pos hx]
        obtain ⟨f1, f2, f3⟩ := hx.choose_spec.choose_spec.choose_spec
        have key : ∀ (j : Nat) (t' : Worker T) (th' : CThread T (Trace T × Objs)), workers[j]? = some t' → c.threads[j]? = some th' → t'.owns x = true →
            ((R j).2.objs x).map (fun a => a.placed th'.env) = ((R i).2.objs x).map (fun a => a.placed th.env) := by
          intro j t' th' g1 g2 g3
          have hi := huniq _ _ _ _ x g1 ht g3 ho
          subst hi
          rw [hth] at g2
          cases g2; rfl
        exact key _ _ _ f1 f2 f3
    · intro x hno
      dsimp only
      rw [dif_neg]
      rintro ⟨i, t, th, ht, _, ho⟩
      rw [hno t (List.mem_of_getElem? ht)] at ho; cases ho
  · -- the threads have ended
    have hE : ∀ (i : Nat) (th : CThread T (Trace T × Objs)), c.threads[i]? = some th → th.Ended := by
      intro i th hth
      obtain ⟨t, ht⟩ := hworker i th hth
      obtain ⟨tr, o, _, h2, _⟩ := hj.owned i t th ht hth
      exact .inl ⟨_, h2⟩
    have hjo : ∀ (i : Nat) (t : Worker T) (th : CThread T (Trace T × Objs)), workers[i]? = some t → c.threads[i]? = some th →
        trs[i]? = some (R i).1 ∧ ∀ x, t.owns x = true → w'.objs x = ((R i).2.objs x).map (fun a => a.placed th.env) := by
      intro i t th ht hth
      obtain ⟨tr, o, h1, h2, h3⟩ := hj.owned i t th ht hth
      rw [(hend i t th ht hth (hE i th hth)).1] at h2
      cases h2
      exact ⟨h1, h3⟩
    let A' : AState T := open Classical in fun x => if h : ∃ (i : Nat) (t : Worker T), workers[i]? = some t ∧ t.owns x = true then A1 h.choose x else A x
    have hA'own : ∀ (i : Nat) (t : Worker T) (x : Nat), workers[i]? = some t → t.owns x = true → A' x = A1 i x := by
      intro i t x ht ho
      have hx : ∃ (i : Nat) (t : Worker T), workers[i]? = some t ∧ t.owns x = true := ⟨i, t, ht, ho⟩
      refine (dif_pos hx).trans ?_
      obtain ⟨f1, f2⟩ := hx.choose_spec.choose_spec
      rw [huniq _ _ _ _ x f1 ht f2 ho]
    have hA'other : ∀ x, (∀ t ∈ workers, t.owns x = false) → A' x = A x := by
      intro x hno
      refine dif_neg ?_
      rintro ⟨i, t, ht, ho⟩
      rw [hno t (List.mem_of_getElem? ht)] at ho; cases ho
    have hcase : ∀ x, (∃ (i : Nat) (t : Worker T) (th : CThread T (Trace T × Objs)), workers[i]? = some t ∧ c.threads[i]? = some th ∧ t.owns x = true) ∨ ∀ t ∈ workers, t.owns x = false := by
      intro x
      by_cases hx : ∃ (i : Nat) (t : Worker T), workers[i]? = some t ∧ t.owns x = true
      · obtain ⟨i, t, ht, ho⟩ := hx
        obtain ⟨th, hth⟩ := hthr i t ht
        exact .inl ⟨i, t, th, ht, hth, ho⟩
      · refine .inr fun t ht => ?_
        obtain ⟨i, hi⟩ := List.mem_iff_getElem?.mp ht
        cases ho : t.owns x with
        | false => rfl
        | true => exact absurd ⟨i, t, hi, ho⟩ hx
    -- an unowned variable's block
    have hun : ∀ x m, w.objs x = some m → (∀ t ∈ workers, t.owns x = false) → ∀ t ∈ workers, ∀ y m', t.owns y = true → w.objs y = some m' → m'.ref.data.blk ≠ m.ref.data.blk := by
      intro x m hx hno t ht y m' ho hy
      refine hw.apart y x m' m hy hx (fun e => ?_)
      subst e
      rw [hno t ht] at ho; cases ho
    have hmem : ∀ (i : Nat) (t : Worker T) (th : CThread T (Trace T × Objs)), workers[i]? = some t → c.threads[i]? = some th → ms' i = (R i).2.st :=
      fun i t th ht hth => (hend i t th ht hth (hE i th hth)).2
    refine ⟨A', ⟨hj.length, A1, fun i t tr ht htr => ?_, hA'other⟩, ⟨hj.free, ⟨hj.pos, by rw [hj.heap]; exact r.splits.null⟩, fun x => ?_, fun x m abs hx hA => ?_, fun x y m m' hx hy hne => ?_⟩, ?_⟩
    · obtain ⟨th, hth⟩ := hthr i t ht
      have h1 := (hjo i t th ht hth).1
      rw [htr] at h1
      cases h1
      exact ⟨(hR i t ht).reach, (hR i t ht).len, (hR i t ht).stop, (hR i t ht).throws, fun x ho => hA'own i t x ht ho⟩
    · rcases hcase x with ⟨i, t, th, ht, hth, ho⟩ | hno
      · rw [(hjo i t th ht hth).2 x ho, hA'own i t x ht ho, Option.map_eq_none_iff]
        exact (hR i t ht).vars x
      · rw [hj.others x hno, hA'other x hno]; exact hw.vars x
    · rcases hcase x with ⟨i, t, th, ht, hth, ho⟩ | hno
      · rw [(hjo i t th ht hth).2 x ho] at hx
        rw [hA'own i t x ht ho] at hA
        obtain ⟨a, ha, rfl⟩ := Option.map_eq_some_iff.mp hx
        have hsee := r.splits.sees i th hth
        rw [hmem i t th ht hth] at hsee
        have hh := holds_placed hsee r.splits.null ((hR i t ht).holds x a abs ha hA)
        exact ⟨hh.owns.mono (by rw [hj.heap]), hh.bases, hh.extents, hh.order⟩
      · rw [hj.others x hno] at hx
        rw [hA'other x hno] at hA
        have hh := hw.holds x m abs hx hA
        obtain ⟨blk, hblk⟩ := holding_block hw hx
        exact ⟨hh.owns.mono (by rw [hj.heap]; exact hsame _ (by rw [hblk]; simp) (hun x m hx hno)), hh.bases, hh.extents, hh.order⟩
    · -- storage is not shared: an owned variable against an unowned one
      have hmixed : ∀ (i : Nat) (t : Worker T) (th : CThread T (Trace T × Objs)) (x y : Nat) (a m : MArr), workers[i]? = some t → c.threads[i]? = some th → t.owns x = true →
          (R i).2.objs x = some a → (∀ t ∈ workers, t.owns y = false) → w.objs y = some m → th.env a.ref.data.blk ≠ m.ref.data.blk := by
        intro i t th x y a m ht hth ho ha hno hy he
        obtain ⟨blk, hblk⟩ := holding_block hw hy
        have hl : (ms' i).heap a.ref.data.blk ≠ none := by rw [hmem i t th ht hth]; exact hlive i t x a ht ha
        rcases hkeep m.ref.data.blk (by rw [hblk]; simp) (hun y m hy hno) with hf | ⟨j, t', z, m', h1, h2, h3, h4, h5⟩
        · exact (r.foreign _ hf).2.2 i th _ hth hl he
        · obtain ⟨th', hth'⟩ := hthr j t' h1
          obtain ⟨e1, _, e3⟩ := hshared j t' th' z m' h1 hth' h2 h3 h4
          rw [h5] at e1 e3
          rcases r.splits.apart i j th th' _ _ hth hth' hl e3 (by rw [e1]; exact he) with ⟨f1, f2⟩ | ⟨f1, _⟩
          · subst f1
            exact hownfree i t x a ht ho ha (by rw [f2]; exact ⟨t', z, m', h1, h2, h3, h4, h5⟩)
          · exact hownfree i t x a ht ho ha f1
      rcases hcase x with ⟨i, t, th, ht, hth, ho⟩ | hno <;> rcases hcase y with ⟨j, t', th', ht', hth', ho'⟩ | hno'
      · rw [(hjo i t th ht hth).2 x ho] at hx
        rw [(hjo j t' th' ht' hth').2 y ho'] at hy
        obtain ⟨a, ha, rfl⟩ := Option.map_eq_some_iff.mp hx
        obtain ⟨a', ha', rfl⟩ := Option.map_eq_some_iff.mp hy
        intro he
        have he : th.env a.ref.data.blk = th'.env a'.ref.data.blk := he
        rcases r.splits.apart i j th th' _ _ hth hth' (by rw [hmem i t th ht hth]; exact hlive i t x a ht ha) (by rw [hmem j t' th' ht' hth']; exact hlive j t' y a' ht' ha') he with
          ⟨f1, f2⟩ | ⟨f1, _⟩
        · subst f1
          exact (hR i t ht).apart x y a a' ha ha' hne f2
        · exact hownfree i t x a ht ho ha f1
      · rw [(hjo i t th ht hth).2 x ho] at hx
        rw [hj.others y hno'] at hy
        obtain ⟨a, ha, rfl⟩ := Option.map_eq_some_iff.mp hx
        exact hmixed i t th x y a m' ht hth ho ha hno' hy
      · rw [(hjo j t' th' ht' hth').2 y ho'] at hy
        rw [hj.others x hno] at hx
        obtain ⟨a, ha, rfl⟩ := Option.map_eq_some_iff.mp hy
        exact (hmixed j t' th' y x a m ht' hth' ho' ha hno hx).symm
      · rw [hj.others x hno] at hx
        rw [hj.others y hno'] at hy
        exact hw.apart x y m m' hx hy hne
    · -- lost storage
      refine ⟨(List.range workers.length).flatMap (fun i => match c.threads[i]? with | some th => (L i).map th.env | none => []), ?_, fun a ha => ?_⟩
      · have hL : ∀ i, i < workers.length → (match c.threads[i]? with | some th => (L i).map th.env | none => []).length ≤ ((trs[i]?.map thrownAllocs).getD 0) := by
          intro i hi
          have ht := List.getElem?_eq_getElem hi
          obtain ⟨th, hth⟩ := hthr i _ ht
          rw [hth, (hjo i _ th ht hth).1]
          simp only [List.length_map, Option.map_some, Option.getD_some]
          exact (hR i _ ht).leaks
        have hsum : ∀ (n : Nat) (f : Nat → List Nat), n ≤ trs.length → (∀ i, i < n → (f i).length ≤ ((trs[i]?.map thrownAllocs).getD 0)) →
            ((List.range n).flatMap f).length ≤ ((trs.take n).map thrownAllocs).sum := by
          intro n f hn hf
          induction n with
          | zero => simp
          | succ n ih =>
            have h1 := ih (by omega) (fun i hi => hf i (by omega))
            have h2 := hf n (by omega)
            have h3 := List.getElem?_eq_getElem (l := trs) (i := n) (by omega)
            rw [h3] at h2
            simp only [Option.map_some, Option.getD_some] at h2
            rw [List.range_succ, List.flatMap_append, List.length_append, List.take_add_one, h3, List.map_append, List.sum_append]
            simp only [List.flatMap_cons, List.flatMap_nil, List.append_nil, Option.toList_some, List.map_cons, List.map_nil, List.sum_cons, List.sum_nil]
            omega
        have := hsum workers.length _ (by rw [hj.length]) hL
        rwa [← hj.length, List.take_length, hj.length] at this
      · rw [hj.heap] at ha
        by_cases hx : ∃ (i : Nat) (th : CThread T (Trace T × Objs)) (b : Nat), c.threads[i]? = some th ∧ (ms' i).heap b ≠ none ∧ th.env b = a
        · obtain ⟨i, th, b, hth, hb, he⟩ := hx
          obtain ⟨t, ht⟩ := hworker i th hth
          rw [hmem i t th ht hth] at hb
          rcases (hR i t ht).owned b hb with hbL | ⟨x, m, hm, hmb⟩
          · left
            refine List.mem_flatMap.mpr ⟨i, List.mem_range.mpr ?_, ?_⟩
            · rcases Nat.lt_or_ge i workers.length with h' | h'
              · exact h'
              · rw [List.getElem?_eq_none h'] at ht; cases ht
            · rw [hth]; exact List.mem_map.mpr ⟨b, hbL, he⟩
          · right; left
            cases ho : t.owns x with
            | true =>
              exact ⟨x, _, by rw [(hjo i t th ht hth).2 x ho, hm]; rfl, by show th.env m.ref.data.blk = a; rw [hmb]; exact he⟩
            | false =>
              have h1 := (hR i t ht).free.same x ho
              rw [hm] at h1
              have h1 : (if t.sees x then w.objs x else none) = some m := h1.symm
              split at h1
              · next hsee =>
                refine ⟨x, m, ?_, ?_⟩
                · rw [hj.others x ?_]; · exact h1
                  intro t' ht'
                  obtain ⟨j, hj'⟩ := List.mem_iff_getElem?.mp ht'
                  cases ho' : t'.owns x with
                  | false => rfl
                  | true =>
                    by_cases hij : j = i
                    · subst hij; rw [ht] at hj'; cases hj'; rw [ho] at ho'; cases ho'
                    · rw [hleg.2 j i t' t x hj' ht hij ho'] at hsee; cases hsee
                · have := (hshared i t th x m ht hth hsee ho h1).1
                  rw [← he, ← hmb]; exact this.symm
              · cases h1
        · have hf := r.accounted a ⟨ha, fun i th b h hb e => hx ⟨i, th, b, h, hb, e⟩⟩
          by_cases hv : ∃ x m, w.objs x = some m ∧ m.ref.data.blk = a
          · obtain ⟨x, m, hm, hma⟩ := hv
            right; left
            refine ⟨x, m, ?_, hma⟩
            rw [hj.others x ?_]; · exact hm
            intro t ht
            obtain ⟨i, hi⟩ := List.mem_iff_getElem?.mp ht
            cases ho : t.owns x with
            | false => rfl
            | true =>
              exfalso
              have hsee := (hleg.1 t ht).2.2 x ho
              obtain ⟨blk, hblk⟩ := holding_block hw hm
              exact hf.2 i _ m.ref.data.blk (fork_thread_of dbg dflt eq lt w hi) (by rw [aloneMem_some hi, alone_heap_of hsee hm, hblk]; simp) hma
          · exact .inr (.inr ⟨hf.1, fun x m hm e => hv ⟨x, m, hm, e⟩⟩)

/-- A section that has begun can be completed: from wherever the threads are, some continuation ends them all.  (By `C84_parallel_section` every continuation does so after the same
number of operations.) -/
theorem C84_completable (dbg : Bool) (dflt : T) (eq lt : T → T → Bool) {w : World T} {A : AState T} (hw : w.Holding A) (workers : List (Worker T))
    (hleg : Section.Legal dflt eq lt A workers) {is : List Nat} {c : CPool T (Trace T × Objs)} (hr : CRun (Section.fork dbg dflt eq lt w workers) is c) :
    ∃ js c', CRun c js c' ∧ c'.Ended := by
  obtain ⟨R, A1, L, hR, hexec, hcomp, hspare⟩ := section_solo dbg dflt eq lt hw hleg
  obtain ⟨ms', r⟩ := run_sim (fork_splits dbg dflt eq lt hw hleg) hcomp hspare hr
  have hold : ∀ (i : Nat) (t' : CThread T (Trace T × Objs)), c.threads[i]? = some t' → ∃ t, (Section.fork dbg dflt eq lt w workers).threads[i]? = some t := by
    intro i t' h
    have hi : i < c.threads.length := by
      rcases Nat.lt_or_ge i c.threads.length with h' | h'
      · exact h'
      · rw [List.getElem?_eq_none h'] at h; cases h
    rw [r.len] at hi
    exact ⟨_, List.getElem?_eq_getElem hi⟩
  refine finish_all r.splits (fun i t' h => ?_) (fun i t' h => ?_)
  · obtain ⟨t, ht⟩ := hold i t' h
    unfold Code.Completes
    rw [(r.thread i t t' ht h).1]
    exact hcomp i t ht
  · obtain ⟨t, ht⟩ := hold i t' h
    exact (r.thread i t t' ht h).2.2.1

theorem crun_trans {c c1 c2 : CPool T (Trace T × Objs)} {is js : List Nat} (h : CRun c is c1) (h' : CRun c1 js c2) : CRun c (is ++ js) c2 := by
  induction h with
  | nil => exact h'
  | cons hs _ ih => exact .cons hs (ih h')

/-- Programs of parallel sections.  A program decides, from all that its threads did in earlier sections, on the next section: which threads run, what each does, which arrays each owns
and which it may read.  Whatever the interleavings, the placement of arrays in memory and the exceptions: after each section the program holds exactly the arrays that the abstract machine says,
each in storage of its own; at most one block of storage per construction or resize that threw has been lost; in the next section no two threads race and none is stuck; and that section
can be completed, after which the same is true again. -/
theorem C84_fork_join (dbg : Bool) (dflt : T) (eq lt : T → T → Bool) (k : Script T) (hk : k.Legal dflt eq lt) {hist : List (List (Trace T))} {w : World T}
    (hr : k.Runs dbg dflt eq lt hist w) :
    ∃ A, k.Reaches dflt eq lt hist A ∧ w.Holding A ∧
      (∃ L : List Nat, L.length ≤ (hist.flatten.map thrownAllocs).sum ∧ ∀ a, w.st.heap a ≠ none → a ∈ L ∨ ∃ x m, w.objs x = some m ∧ m.ref.data.blk = a) ∧
      ∀ workers, k hist = some workers → ∀ is c, CRun (Section.fork dbg dflt eq lt w workers) is c →
        ¬ c.Racing ∧ (∀ (i : Nat) (th : CThread T (Trace T × Objs)), c.threads[i]? = some th → ¬ th.Ended → ∃ c2, CStep c i c2) ∧
        ∃ js c' trs w', CRun c js c' ∧ c'.Ended ∧ Section.Joins w workers c' trs w' ∧ k.Runs dbg dflt eq lt (hist ++ [trs]) w' := by
  have main : ∃ A, k.Reaches dflt eq lt hist A ∧ w.Holding A ∧
      (∃ L : List Nat, L.length ≤ (hist.flatten.map thrownAllocs).sum ∧ ∀ a, w.st.heap a ≠ none → a ∈ L ∨ ∃ x m, w.objs x = some m ∧ m.ref.data.blk = a) := by
    induction hr with
    | start =>
      refine ⟨fun _ => none, .start, ⟨fun _ _ => rfl, ⟨Nat.one_pos, rfl⟩, fun _ => ⟨fun _ => rfl, fun _ => rfl⟩, fun _ _ _ h => (nomatch h), fun _ _ _ _ h => (nomatch h)⟩, [], Nat.le_refl _, ?_⟩
      intro a ha
      exact absurd rfl ha
    | @next hist w w' workers is c trs _ hw hc hE hj ih =>
      obtain ⟨A, h1, h2, L, h3, h4⟩ := ih
      obtain ⟨_, _, _, _, _, _, g⟩ := C84_parallel_section dbg dflt eq lt h2 workers (hk hist A workers h1 hw) hc
      obtain ⟨A', f1, f2, L', f3, f4⟩ := g trs w' hj
      refine ⟨A', .next h1 hw f1, f2, L ++ L', ?_, fun a ha => ?_⟩
      · rw [List.flatten_append, List.map_append, List.sum_append, List.length_append]
        simp only [List.flatten_cons, List.flatten_nil, List.append_nil]
        omega
      · rcases f4 a ha with h | h | ⟨h, h'⟩
        · exact .inl (List.mem_append_right _ h)
        · exact .inr h
        · rcases h4 a h with h | ⟨x, m, hx, hm⟩
          · exact .inl (List.mem_append_left _ h)
          · exact absurd hm (h' x m hx)
  obtain ⟨A, h1, h2, h3⟩ := main
  refine ⟨A, h1, h2, h3, fun workers hw is c hc => ?_⟩
  have hleg := hk hist A workers h1 hw
  obtain ⟨g1, g2, _⟩ := C84_parallel_section dbg dflt eq lt h2 workers hleg hc
  obtain ⟨js, c', e1, e2⟩ := C84_completable dbg dflt eq lt h2 workers hleg hc
  obtain ⟨_, _, _, _, _, g, _⟩ := C84_parallel_section dbg dflt eq lt h2 workers hleg (crun_trans hc e1)
  obtain ⟨trs, w', e3⟩ := g e2
  exact ⟨g1, g2, js, c', trs, w', e1, e2, e3, .next hr hw (crun_trans hc e1) e2 e3⟩

theorem throws_append (tr tr' : Trace T) : throws (tr ++ tr') = throws tr + throws tr' := by
  unfold throws; rw [List.filter_append, List.length_append]

/-- Without exceptions the first `n` commands, what they return and the state after them are determined. -/
theorem reachesFrom_prefix (dflt : T) (eq lt : T → T → Bool) {k : Client T} {A0 : AState T} {tr tr' : Trace T} {A A' : AState T}
    (h : k.ReachesFrom dflt eq lt A0 tr A) (h' : k.ReachesFrom dflt eq lt A0 tr' A') (h0 : throws tr = 0) (h0' : throws tr' = 0) (hl : tr.length ≤ tr'.length) :
    (tr.length = tr'.length → tr = tr' ∧ A = A') ∧ (tr.length < tr'.length → k tr ≠ none) := by
  have same : ∀ {tr tr' : Trace T} {A A' : AState T}, k.ReachesFrom dflt eq lt A0 tr A → k.ReachesFrom dflt eq lt A0 tr' A' → throws tr = 0 → throws tr' = 0 → tr.length = tr'.length →
      tr = tr' ∧ A = A' := by
    intro tr tr' A A' h
    induction h generalizing tr' A' with
    | start =>
      intro h' _ _ hl
      cases h' with
      | start => exact ⟨rfl, rfl⟩
      | done => simp at hl
      | threw => simp at hl
    | @done tr A A1 c o hr hc hs ih =>
      intro h' h0 h0' hl
      cases h' with
      | start => simp at hl
      | @done tr2 B B1 c2 o2 hr2 hc2 hs2 =>
        rw [throws_append] at h0 h0'
        obtain ⟨rfl, rfl⟩ := ih hr2 (by omega) (by omega) (by simpa using hl)
        rw [hc] at hc2; cases hc2
        rw [hs] at hs2; cases hs2
        exact ⟨rfl, rfl⟩
      | threw => rw [throws_append] at h0'; simp [throws] at h0'
    | threw => intro h' h0; rw [throws_append] at h0; simp [throws] at h0
  refine ⟨same h h' h0 h0', fun hlt => ?_⟩
  -- the run of length `tr.length + 1`
  have pre : ∀ {tr' : Trace T} {A' : AState T}, k.ReachesFrom dflt eq lt A0 tr' A' → throws tr' = 0 → tr.length < tr'.length → k tr ≠ none := by
    intro tr' A' h'
    induction h' with
    | start => intro _ hlt; simp at hlt
    | @done tr2 B B1 c o hr hc hs ih =>
      intro h0' hlt
      rw [throws_append] at h0'
      rw [List.length_append] at hlt
      rcases Nat.lt_or_ge tr.length tr2.length with h2 | h2
      · exact ih (by omega) h2
      · obtain ⟨rfl, _⟩ := same h hr h0 (by omega) (by simp at hlt; omega)
        rw [hc]; simp
    | threw => intro h0'; rw [throws_append] at h0'; simp [throws] at h0'
  exact pre h' h0' hlt

/-- A client that runs to its end without exceptions has one result. -/
theorem reachesFrom_unique (dflt : T) (eq lt : T → T → Bool) {k : Client T} {A0 : AState T} {n : Nat} {tr tr' : Trace T} {A A' : AState T}
    (h : k.ReachesFrom dflt eq lt A0 tr A) (h' : k.ReachesFrom dflt eq lt A0 tr' A') (h0 : throws tr = 0) (h0' : throws tr' = 0) (hl : tr.length ≤ n) (hl' : tr'.length ≤ n)
    (he : tr.length = n ∨ k tr = none) (he' : tr'.length = n ∨ k tr' = none) : tr = tr' ∧ A = A' := by
  rcases Nat.lt_trichotomy tr.length tr'.length with hlt | heq | hgt
  · rcases he with he | he
    · omega
    · exact absurd he ((reachesFrom_prefix dflt eq lt h h' h0 h0' (Nat.le_of_lt hlt)).2 hlt)
  · exact (reachesFrom_prefix dflt eq lt h h' h0 h0' (Nat.le_of_eq heq)).1 heq
  · rcases he' with he' | he'
    · omega
    · exact absurd he' ((reachesFrom_prefix dflt eq lt h' h h0' h0 (Nat.le_of_lt hgt)).2 hgt)

theorem section_unique (dflt : T) (eq lt : T → T → Bool) {A : AState T} {workers : List (Worker T)} (hcalm : ∀ t ∈ workers, ∀ e ∈ t.sched, e = none) {trs trs' : List (Trace T)}
    {A1 A2 : AState T} (h : Section.Reaches dflt eq lt A workers trs A1) (h' : Section.Reaches dflt eq lt A workers trs' A2) : trs = trs' ∧ A1 = A2 := by
  obtain ⟨l, As, h1, h2⟩ := h
  obtain ⟨l', As', h1', h2'⟩ := h'
  have key : ∀ (i : Nat) (t : Worker T) (tr tr' : Trace T), workers[i]? = some t → trs[i]? = some tr → trs'[i]? = some tr' → tr = tr' ∧ As i = As' i := by
    intro i t tr tr' ht e e'
    obtain ⟨a1, a2, a3, a4, _⟩ := h1 i t tr ht e
    obtain ⟨b1, b2, b3, b4, _⟩ := h1' i t tr' ht e'
    have hz : (t.sched.filter Option.isSome).length = 0 := by
      rw [List.length_eq_zero_iff, List.filter_eq_nil_iff]
      intro x hx
      rw [hcalm t (List.mem_of_getElem? ht) x hx]; simp
    exact reachesFrom_unique dflt eq lt a1 b1 (by omega) (by omega) a2 b2 a3 b3
  constructor
  · refine List.ext_getElem? fun i => ?_
    rcases Nat.lt_or_ge i workers.length with hi | hi
    · have e := List.getElem?_eq_getElem (l := trs) (i := i) (by omega)
      have e' := List.getElem?_eq_getElem (l := trs') (i := i) (by omega)
      rw [e, e', (key i _ _ _ (List.getElem?_eq_getElem hi) e e').1]
    · rw [List.getElem?_eq_none (by omega), List.getElem?_eq_none (by omega)]
  · funext x
    by_cases hx : ∃ (i : Nat) (t : Worker T), workers[i]? = some t ∧ t.owns x = true
    · obtain ⟨i, t, ht, ho⟩ := hx
      have hi : i < workers.length := by
        rcases Nat.lt_or_ge i workers.length with h' | h'
        · exact h'
        · rw [List.getElem?_eq_none h'] at ht; cases ht
      have e := List.getElem?_eq_getElem (l := trs) (i := i) (by omega)
      have e' := List.getElem?_eq_getElem (l := trs') (i := i) (by omega)
      obtain ⟨_, _, _, _, a⟩ := h1 i t _ ht e
      obtain ⟨_, _, _, _, b⟩ := h1' i t _ ht e'
      rw [a x ho, b x ho, (key i t _ _ ht e e').2]
    · have hno : ∀ t ∈ workers, t.owns x = false := by
        intro t ht
        obtain ⟨i, hi⟩ := List.mem_iff_getElem?.mp ht
        cases ho : t.owns x with
        | false => rfl
        | true => exact absurd ⟨i, t, hi, ho⟩ hx
      rw [h2 x hno, h2' x hno]

theorem script_unique (dflt : T) (eq lt : T → T → Bool) {k : Script T} (hcalm : k.Calm dflt eq lt) {hist hist' : List (List (Trace T))} {A A' : AState T}
    (h : k.Reaches dflt eq lt hist A) (h' : k.Reaches dflt eq lt hist' A') (hl : hist.length = hist'.length) : hist = hist' ∧ A = A' := by
  induction h generalizing hist' A' with
  | start =>
    cases h' with
    | start => exact ⟨rfl, rfl⟩
    | next => simp at hl
  | @next hist A A1 workers trs hr hw hs ih =>
    cases h' with
    | start => simp at hl
    | @next hist2 B B1 workers2 trs2 hr2 hw2 hs2 =>
      obtain ⟨rfl, rfl⟩ := ih hr2 (by simpa using hl)
      rw [hw] at hw2; cases hw2
      obtain ⟨rfl, rfl⟩ := section_unique dflt eq lt (hcalm _ _ _ hr hw) hs hs2
      exact ⟨rfl, rfl⟩

/-- A program of parallel sections in which no exceptions are due computes the same whatever the interleaving and the placement of arrays: after equally many sections the threads have performed the same
commands and seen the same results, and the program holds the same arrays (in particular the same as if all threads had run one after the other). -/
theorem C84_deterministic (dbg dbg' : Bool) (dflt : T) (eq lt : T → T → Bool) (k : Script T) (hk : k.Legal dflt eq lt) (hcalm : k.Calm dflt eq lt) {hist hist' : List (List (Trace T))} {w w' : World T}
    (hr : k.Runs dbg dflt eq lt hist w) (hr' : k.Runs dbg' dflt eq lt hist' w') (hl : hist.length = hist'.length) :
    hist = hist' ∧ ∃ A, w.Holding A ∧ w'.Holding A := by
  obtain ⟨A, h1, h2, _⟩ := C84_fork_join dbg dflt eq lt k hk hr
  obtain ⟨A', h1', h2', _⟩ := C84_fork_join dbg' dflt eq lt k hk hr'
  obtain ⟨rfl, rfl⟩ := script_unique dflt eq lt hcalm h1 h1' hl
  exact ⟨rfl, A, h2, h2'⟩

/-! ### A program of parallel sections that meets the hypotheses -/

/-- Perform these commands in order, retrying each until it does not throw. -/
def retry (cmds : List (Cmd Nat)) : Client Nat := fun tr => cmds[completed tr]?

theorem retry_inv {eq lt : Nat → Nat → Bool} {cmds : List (Cmd Nat)} {A0 : AState Nat} (P : Nat → AState Nat → Prop) (h0 : P 0 A0)
    (hdone : ∀ n c A A' o, cmds[n]? = some c → P n A → A.step 0 eq lt c = some (o, A') → P (n + 1) A')
    (hthrew : ∀ n c A A', cmds[n]? = some c → P n A → A.Interrupted c A' → P n A') {tr : Trace Nat} {A : AState Nat}
    (h : (retry cmds).ReachesFrom 0 eq lt A0 tr A) : P (completed tr) A := by
  induction h with
  | start => exact h0
  | done _ hc hs ih => rw [completed_snoc]; exact hdone _ _ _ _ _ hc ih hs
  | threw _ hc hs ih => rw [completed_snoc]; exact hthrew _ _ _ _ hc ih hs

/-- A `2x2` array. -/
def square (vs : List Nat) : AbsArr Nat := ⟨[0, 0], [2, 2], StorageOrder.cOrder 2, vs⟩

/-- The first section, with one thread: `multi_array<int,2> a(extents[2][2]); a.assign(1..4)`, where the first allocation may throw. -/
def makeA (sched : List (Option Nat)) : Worker Nat :=
  ⟨retry [.construct 0 (.extents 2 [2, 2] (StorageOrder.cOrder 2) 0), .on 0 (.assign [1, 2, 3, 4])], 4, sched, fun x => x == 0, fun x => x == 0⟩

/-- The second section, first thread: `multi_array<int,2> b(a); b[1][1] = 7`. -/
def makeB : Worker Nat := ⟨retry [.construct 1 (.copy 0), .on 1 (.write [1, 1] 7)], 4, [], fun x => x == 0 || x == 1, fun x => x == 1⟩

/-- The second section, second thread: `multi_array<int,2> c(a); c == a`. -/
def makeC (sched : List (Option Nat)) : Worker Nat :=
  ⟨retry [.construct 2 (.copy 0), .equal 2 [] 0 []], 4, sched, fun x => x == 0 || x == 2, fun x => x == 2⟩

/-- The third section: `c < b`; destroy `a`. -/
def compareBC : Worker Nat := ⟨retry [.less 2 [] 1 [], .destroy 0], 4, [], fun _ => true, fun x => x == 0⟩

/-- The program goes on as long as all commands of a section were completed. -/
def demoScript (sched : List (Option Nat)) : Script Nat
  | [] => some [makeA sched]
  | [[t]] => if completed t = 2 then some [makeB, makeC sched] else none
  | [[_], [t, t']] => if completed t = 2 ∧ completed t' = 2 then some [compareBC] else none
  | _ => none

def invA (n : Nat) (A : AState Nat) : Prop :=
  match n with
  | 0 => A 0 = none
  | _ => ∃ vs, A 0 = some (square vs)

def invB (n : Nat) (A : AState Nat) : Prop :=
  (∃ vs, A 0 = some (square vs)) ∧
  match n with
  | 0 => A 1 = none
  | _ => ∃ vs, A 1 = some (square vs)

def invC (n : Nat) (A : AState Nat) : Prop :=
  (∃ vs, A 0 = some (square vs)) ∧
  match n with
  | 0 => A 2 = none
  | _ => ∃ vs, A 2 = some (square vs)

theorem makeA_inv {eq lt : Nat → Nat → Bool} (s : List (Option Nat)) {A0 : AState Nat} (h0 : A0 0 = none) {tr : Trace Nat} {A : AState Nat}
    (h : (makeA s).client.ReachesFrom 0 eq lt A0 tr A) : invA (completed tr) A := by
  refine retry_inv invA h0 (fun n c A A' o hc hP hs => ?_) (fun n c A A' hc hP hs => ?_) h
  · match n, hc with
    | 0, hc => cases hc; cases hs; exact ⟨_, rfl⟩
    | 1, hc =>
      cases hc; obtain ⟨vs, h1⟩ := hP
      simp only [AState.step, h1, Option.bind_some, AbsArr.step, Option.map_some, Option.some.injEq, Prod.mk.injEq] at hs
      obtain ⟨_, rfl⟩ := hs
      exact ⟨_, rfl⟩
    | n + 2, hc => cases hc
  · match n, hc with
    | 0, hc => cases hc; cases hs; exact hP
    | 1, hc =>
      cases hc; obtain ⟨vs, h1⟩ := hP
      obtain ⟨a, k, junk, e1, _, _, rfl⟩ := hs
      rw [h1] at e1
      cases e1
      exact ⟨_, rfl⟩
    | n + 2, hc => cases hc

theorem makeB_inv {eq lt : Nat → Nat → Bool} {A0 : AState Nat} (h0 : invB 0 A0) {tr : Trace Nat} {A : AState Nat}
    (h : makeB.client.ReachesFrom 0 eq lt A0 tr A) : invB (completed tr) A := by
  refine retry_inv invB h0 (fun n c A A' o hc hP hs => ?_) (fun n c A A' hc hP hs => ?_) h
  · match n, hc with
    | 0, hc =>
      cases hc; obtain ⟨⟨vs, h1⟩, h2⟩ := hP
      simp only [AState.step, CInit.value, h1, Option.map_some, Option.some.injEq, Prod.mk.injEq] at hs
      obtain ⟨_, rfl⟩ := hs
      exact ⟨⟨vs, h1⟩, _, rfl⟩
    | 1, hc =>
      cases hc; obtain ⟨⟨vs0, h0⟩, vs, h1⟩ := hP
      simp only [AState.step, h1, Option.bind_some, AbsArr.step, Option.map_some, Option.some.injEq, Prod.mk.injEq] at hs
      obtain ⟨_, rfl⟩ := hs
      exact ⟨⟨vs0, h0⟩, _, rfl⟩
    | n + 2, hc => cases hc
  · match n, hc with
    | 0, hc => cases hc; cases hs; exact hP
    | 1, hc =>
      cases hc; obtain ⟨⟨vs0, h0⟩, vs, h1⟩ := hP
      obtain ⟨junk, e⟩ := hs
      simp only [AState.put, h1, Option.map_some, Option.some.injEq] at e
      subst e
      exact ⟨⟨vs0, h0⟩, _, rfl⟩
    | n + 2, hc => cases hc

theorem makeC_inv {eq lt : Nat → Nat → Bool} (s : List (Option Nat)) {A0 : AState Nat} (h0 : invC 0 A0) {tr : Trace Nat} {A : AState Nat}
    (h : (makeC s).client.ReachesFrom 0 eq lt A0 tr A) : invC (completed tr) A := by
  refine retry_inv invC h0 (fun n c A A' o hc hP hs => ?_) (fun n c A A' hc hP hs => ?_) h
  · match n, hc with
    | 0, hc =>
      cases hc; obtain ⟨⟨vs, h1⟩, h2⟩ := hP
      simp only [AState.step, CInit.value, h1, Option.map_some, Option.some.injEq, Prod.mk.injEq] at hs
      obtain ⟨_, rfl⟩ := hs
      exact ⟨⟨vs, h1⟩, _, rfl⟩
    | 1, hc =>
      cases hc; obtain ⟨⟨vs0, h0⟩, vs, h1⟩ := hP
      simp only [AState.step, AState.part, h0, h1, Option.bind_some, Option.map_some, Option.some.injEq, Prod.mk.injEq] at hs
      obtain ⟨_, rfl⟩ := hs
      exact ⟨⟨vs0, h0⟩, vs, h1⟩
    | n + 2, hc => cases hc
  · match n, hc with
    | 0, hc => cases hc; cases hs; exact hP
    | 1, hc => cases hc; cases hs
    | n + 2, hc => cases hc

theorem makeA_legal {eq lt : Nat → Nat → Bool} (s : List (Option Nat)) {A : AState Nat} (h0 : A 0 = none) : (makeA s).Legal 0 eq lt A := by
  have h0' : (makeA s).view A 0 = none := h0
  refine ⟨fun tr A' c hr hc => ?_, fun tr A' c x hr hc hx => ?_, fun x h => h⟩
  · have hi := makeA_inv s h0' hr
    have hc : ([.construct 0 (.extents 2 [2, 2] (StorageOrder.cOrder 2) 0), .on 0 (.assign [1, 2, 3, 4])] : List (Cmd Nat))[completed tr]? = some c := hc
    generalize completed tr = n at hi hc
    match n, hc with
    | 0, hc => cases hc; exact ⟨hi, cOrder_valid 2, rfl⟩
    | 1, hc => cases hc; obtain ⟨vs, h1⟩ := hi; exact ⟨_, h1, trivial⟩
    | n + 2, hc => cases hc
  · have hc : ([.construct 0 (.extents 2 [2, 2] (StorageOrder.cOrder 2) 0), .on 0 (.assign [1, 2, 3, 4])] : List (Cmd Nat))[completed tr]? = some c := hc
    generalize completed tr = n at hc
    match n, hc with
    | 0, hc => cases hc; cases hx; rfl
    | 1, hc => cases hc; cases hx; rfl
    | n + 2, hc => cases hc

theorem makeB_legal {eq lt : Nat → Nat → Bool} {A : AState Nat} (h0 : invB 0 A) : makeB.Legal 0 eq lt A := by
  have h0' : invB 0 (makeB.view A) := h0
  refine ⟨fun tr A' c hr hc => ?_, fun tr A' c x hr hc hx => ?_, fun x h => ?_⟩
  · have hi := makeB_inv h0' hr
    have hc : ([.construct 1 (.copy 0), .on 1 (.write [1, 1] 7)] : List (Cmd Nat))[completed tr]? = some c := hc
    generalize completed tr = n at hi hc
    match n, hc with
    | 0, hc => cases hc; obtain ⟨⟨vs, h1⟩, h2⟩ := hi; exact ⟨h2, _, h1⟩
    | 1, hc => cases hc; obtain ⟨_, vs, h1⟩ := hi; exact ⟨_, h1, (by decide : InBox [0, 0] [2, 2] [1, 1])⟩
    | n + 2, hc => cases hc
  · have hc : ([.construct 1 (.copy 0), .on 1 (.write [1, 1] 7)] : List (Cmd Nat))[completed tr]? = some c := hc
    generalize completed tr = n at hc
    match n, hc with
    | 0, hc => cases hc; cases hx; rfl
    | 1, hc => cases hc; cases hx; rfl
    | n + 2, hc => cases hc
  · simp only [makeB, beq_iff_eq] at h ⊢; simp [h]

theorem makeC_legal {eq lt : Nat → Nat → Bool} (s : List (Option Nat)) {A : AState Nat} (h0 : invC 0 A) : (makeC s).Legal 0 eq lt A := by
  have h0' : invC 0 ((makeC s).view A) := h0
  refine ⟨fun tr A' c hr hc => ?_, fun tr A' c x hr hc hx => ?_, fun x h => ?_⟩
  · have hi := makeC_inv s h0' hr
    have hc : ([.construct 2 (.copy 0), .equal 2 [] 0 []] : List (Cmd Nat))[completed tr]? = some c := hc
    generalize completed tr = n at hi hc
    match n, hc with
    | 0, hc => cases hc; obtain ⟨⟨vs, h1⟩, h2⟩ := hi; exact ⟨h2, _, h1⟩
    | 1, hc => cases hc; obtain ⟨⟨_, h0⟩, vs, h1⟩ := hi; exact ⟨_, _, ⟨_, h1, trivial, rfl⟩, ⟨_, h0, trivial, rfl⟩, rfl⟩
    | n + 2, hc => cases hc
  · have hc : ([.construct 2 (.copy 0), .equal 2 [] 0 []] : List (Cmd Nat))[completed tr]? = some c := hc
    generalize completed tr = n at hc
    match n, hc with
    | 0, hc => cases hc; cases hx; rfl
    | 1, hc => cases hc; cases hx
    | n + 2, hc => cases hc
  · simp only [makeC, beq_iff_eq] at h ⊢; simp [h]

theorem compareBC_legal {eq lt : Nat → Nat → Bool} {A : AState Nat} (h0 : (∃ a, A 0 = some a) ∧ (∃ vs, A 1 = some (square vs)) ∧ ∃ vs, A 2 = some (square vs)) :
    compareBC.Legal 0 eq lt A := by
  let P : Nat → AState Nat → Prop := fun n A => n < 2 → (∃ a, A 0 = some a) ∧ (∃ vs, A 1 = some (square vs)) ∧ ∃ vs, A 2 = some (square vs)
  have hP : ∀ {tr : Trace Nat} {A' : AState Nat}, compareBC.client.ReachesFrom 0 eq lt (compareBC.view A) tr A' → P (completed tr) A' := by
    intro tr A' hr
    refine retry_inv P (fun _ => h0) (fun n c A A' o hc hP hs => ?_) (fun n c A A' hc hP hs => ?_) hr
    · match n, hc with
      | 0, hc =>
        cases hc
        obtain ⟨⟨a, h1⟩, ⟨vs, h2⟩, ⟨vs', h3⟩⟩ := hP (by decide)
        simp only [AState.step, AState.part, h2, h3, Option.bind_some, Option.map_some, Option.some.injEq, Prod.mk.injEq] at hs
        obtain ⟨_, rfl⟩ := hs
        exact fun _ => ⟨⟨a, h1⟩, ⟨vs, h2⟩, ⟨vs', h3⟩⟩
      | 1, hc => exact fun h => absurd h (by decide)
      | n + 2, hc => cases hc
    · match n, hc with
      | 0, hc => cases hc; cases hs
      | 1, hc => cases hc; cases hs
      | n + 2, hc => cases hc
  refine ⟨fun tr A' c hr hc => ?_, fun tr A' c x hr hc hx => ?_, fun x h => rfl⟩
  · have hi := hP hr
    have hc : ([.less 2 [] 1 [], .destroy 0] : List (Cmd Nat))[completed tr]? = some c := hc
    generalize completed tr = n at hi hc
    match n, hc with
    | 0, hc => cases hc; obtain ⟨_, ⟨vs, h2⟩, ⟨vs', h3⟩⟩ := hi (by decide); exact ⟨_, _, ⟨_, h3, trivial, rfl⟩, ⟨_, h2, trivial, rfl⟩, rfl⟩
    | 1, hc => cases hc; obtain ⟨h1, _⟩ := hi (by decide); exact h1
    | n + 2, hc => cases hc
  · have hc : ([.less 2 [] 1 [], .destroy 0] : List (Cmd Nat))[completed tr]? = some c := hc
    generalize completed tr = n at hc
    match n, hc with
    | 0, hc => cases hc; cases hx
    | 1, hc => cases hc; cases hx; rfl
    | n + 2, hc => cases hc

/-- The state between sections. -/
def demoState (hist : List (List (Trace Nat))) (A : AState Nat) : Prop :=
  match hist with
  | [] => A = fun _ => none
  | [[t]] => completed t = 2 → invB 0 A ∧ invC 0 A
  | [[_], [t, t']] => completed t = 2 ∧ completed t' = 2 → (∃ a, A 0 = some a) ∧ (∃ vs, A 1 = some (square vs)) ∧ ∃ vs, A 2 = some (square vs)
  | _ => True

theorem demoScript_state {eq lt : Nat → Nat → Bool} (s : List (Option Nat)) {hist : List (List (Trace Nat))} {A : AState Nat}
    (h : (demoScript s).Reaches 0 eq lt hist A) : demoState hist A := by
  induction h with
  | start => rfl
  | @next hist A A' workers trs _ hw hs ih =>
    obtain ⟨hl, As, h1, h2⟩ := hs
    match hist, hw with
    | [], hw =>
      cases hw
      match trs, hl with
      | [t], _ =>
        intro ht
        obtain ⟨e1, _, _, _, e2⟩ := h1 0 _ t rfl rfl
        have ih : A = fun _ => none := ih
        subst ih
        have := makeA_inv s rfl e1
        rw [ht] at this
        obtain ⟨vs, hv⟩ := this
        have hA : ∀ x, (x == 0) = false → A' x = none := fun x hx => h2 x (fun t ht => by cases List.mem_singleton.mp ht; exact hx)
        exact ⟨⟨⟨vs, by rw [e2 0 rfl, hv]⟩, hA 1 rfl⟩, ⟨⟨vs, by rw [e2 0 rfl, hv]⟩, hA 2 rfl⟩⟩
    | [[t0]], hw =>
      simp only [demoScript] at hw
      split at hw
      · next ht0 =>
        cases hw
        obtain ⟨hB, hC⟩ := ih ht0
        match trs, hl with
        | [t, t'], _ =>
          intro ⟨ht, ht'⟩
          obtain ⟨e1, _, _, _, e2⟩ := h1 0 _ t rfl rfl
          obtain ⟨f1, _, _, _, f2⟩ := h1 1 _ t' rfl rfl
          have hb := makeB_inv (show invB 0 (makeB.view A) from hB) e1
          have hc := makeC_inv s (show invC 0 ((makeC s).view A) from hC) f1
          rw [ht] at hb
          rw [ht'] at hc
          obtain ⟨_, vs, hb⟩ := hb
          obtain ⟨_, vs', hc⟩ := hc
          refine ⟨?_, ⟨vs, by rw [e2 1 rfl, hb]⟩, ⟨vs', by rw [f2 2 rfl, hc]⟩⟩
          obtain ⟨⟨v0, h0⟩, _⟩ := hB
          exact ⟨_, (h2 0 (fun t ht => by
            simp only [List.mem_cons, List.not_mem_nil, or_false] at ht
            rcases ht with rfl | rfl <;> rfl)).trans h0⟩
      · cases hw
    | [[t0], [t1, t2]], hw => trivial

theorem demoScript_legal (eq lt : Nat → Nat → Bool) (s : List (Option Nat)) : (demoScript s).Legal 0 eq lt := by
  intro hist A workers hr hw
  have hi := demoScript_state s hr
  match hist, hw with
  | [], hw =>
    cases hw
    refine ⟨fun t ht => ?_, fun i j t t' x ht ht' hij ho => ?_⟩
    · cases List.mem_singleton.mp ht
      exact makeA_legal s (by rw [show A = fun _ => none from hi])
    · match i, j, ht, ht' with
      | 0, 0, _, _ => exact absurd rfl hij
  | [[t0]], hw =>
    simp only [demoScript] at hw
    split at hw
    · next ht0 =>
      cases hw
      obtain ⟨hB, hC⟩ := hi ht0
      refine ⟨fun t ht => ?_, fun i j t t' x ht ht' hij ho => ?_⟩
      · simp only [List.mem_cons, List.not_mem_nil, or_false] at ht
        rcases ht with rfl | rfl
        · exact makeB_legal hB
        · exact makeC_legal s hC
      · match i, j, ht, ht' with
        | 0, 0, _, _ => exact absurd rfl hij
        | 1, 1, _, _ => exact absurd rfl hij
        | 0, 1, ht, ht' =>
          cases ht; cases ht'
          simp only [makeB, makeC, beq_iff_eq] at ho ⊢
          subst ho; rfl
        | 1, 0, ht, ht' =>
          cases ht; cases ht'
          simp only [makeB, makeC, beq_iff_eq] at ho ⊢
          subst ho; rfl
    · cases hw
  | [[t0], [t1, t2]], hw =>
    simp only [demoScript] at hw
    split at hw
    · next ht =>
      cases hw
      refine ⟨fun t ht' => ?_, fun i j t t' x ht ht' hij ho => ?_⟩
      · cases List.mem_singleton.mp ht'
        exact compareBC_legal (hi ht)
      · match i, j, ht, ht' with
        | 0, 0, _, _ => exact absurd rfl hij
    · cases hw

theorem demoScript_calm (eq lt : Nat → Nat → Bool) : (demoScript []).Calm 0 eq lt := by
  intro hist A workers hr hw t ht e he
  match hist, hw with
  | [], hw => cases hw; cases List.mem_singleton.mp ht; cases he
  | [[t0]], hw =>
    simp only [demoScript] at hw
    split at hw
    · cases hw
      simp only [List.mem_cons, List.not_mem_nil, or_false] at ht
      rcases ht with rfl | rfl <;> cases he
    · cases hw
  | [[t0], [t1, t2]], hw =>
    simp only [demoScript] at hw
    split at hw
    · cases hw; cases List.mem_singleton.mp ht; cases he
    · cases hw

theorem retry_completed {eq lt : Nat → Nat → Bool} {n : Nat} {cmds : List (Cmd Nat)} {A0 : AState Nat} {tr : Trace Nat} {A : AState Nat} (h : (retry cmds).ReachesFrom 0 eq lt A0 tr A)
    (hs : tr.length = n ∨ retry cmds tr = none) {m : Nat} (ht : throws tr ≤ m) (hn : cmds.length + m ≤ n) : completed tr = cmds.length := by
  have hle : completed tr ≤ cmds.length := by
    clear hs ht
    induction h with
    | start => exact Nat.zero_le _
    | @done tr _ _ c _ _ hc _ ih =>
      rw [completed_snoc]
      have : completed tr < cmds.length := by
        rcases Nat.lt_or_ge (completed tr) cmds.length with h' | h'
        · exact h'
        · have hc : cmds[completed tr]? = some c := hc
          rw [List.getElem?_eq_none h'] at hc; cases hc
      simp only [Option.isSome_some, if_true]; omega
    | threw _ _ _ ih => rw [completed_snoc]; simpa using ih
  have hsum : completed tr + throws tr = tr.length := by
    unfold completed throws
    clear h hs ht hle
    induction tr with
    | nil => rfl
    | cons p tr ih =>
      obtain ⟨c, o⟩ := p
      cases o <;> simp only [List.filter_cons, Option.isSome_none, Option.isSome_some, Option.isNone_none, Option.isNone_some, List.length_cons] at ih ⊢ <;> simp <;> omega
  rcases hs with hs | hs
  · omega
  · have hs : cmds[completed tr]? = none := hs
    rw [List.getElem?_eq_none_iff] at hs
    omega

/-- The commands of all sections were completed. -/
def demoDone (hist : List (List (Trace Nat))) : Prop :=
  match hist with
  | [] => True
  | [[t]] => completed t = 2
  | [[_], [t, t']] => completed t = 2 ∧ completed t' = 2
  | [[_], [_, _], [t]] => completed t = 2
  | _ => False

/-- With at most two exceptions per thread, all commands of a section are completed. -/
theorem demoScript_done {eq lt : Nat → Nat → Bool} {s : List (Option Nat)} (hs : (s.filter Option.isSome).length ≤ 2) {hist : List (List (Trace Nat))} {A : AState Nat}
    (h : (demoScript s).Reaches 0 eq lt hist A) : demoDone hist := by
  induction h with
  | start => trivial
  | @next hist A A' workers trs _ hw hr ih =>
    obtain ⟨hl, As, h1, _⟩ := hr
    match hist, hw with
    | [], hw =>
      cases hw
      match trs, hl with
      | [t], _ =>
        obtain ⟨e1, _, e3, e4, _⟩ := h1 0 _ t rfl rfl
        exact retry_completed e1 e3 (Nat.le_trans e4 hs) (Nat.le_refl _)
    | [[t0]], hw =>
      simp only [demoScript] at hw
      split at hw
      · cases hw
        match trs, hl with
        | [t, t'], _ =>
          obtain ⟨e1, _, e3, e4, _⟩ := h1 0 _ t rfl rfl
          obtain ⟨f1, _, f3, f4, _⟩ := h1 1 _ t' rfl rfl
          exact ⟨retry_completed e1 e3 (Nat.le_trans e4 (Nat.zero_le 2)) (Nat.le_refl _), retry_completed f1 f3 (Nat.le_trans f4 hs) (Nat.le_refl _)⟩
      · next hno => exact absurd ih hno
    | [[t0], [t1, t2]], hw =>
      simp only [demoScript] at hw
      split at hw
      · cases hw
        match trs, hl with
        | [t], _ =>
          obtain ⟨e1, _, e3, e4, _⟩ := h1 0 _ t rfl rfl
          exact retry_completed e1 e3 (Nat.le_trans e4 (Nat.zero_le 2)) (Nat.le_refl _)
      · next hno => exact absurd ih hno

/-- A run of all three sections, in which the first allocation of `makeA` and that of `makeC` throw. -/
theorem demoScript_runs (dbg : Bool) (eq lt : Nat → Nat → Bool) {s : List (Option Nat)} (hs : (s.filter Option.isSome).length ≤ 2) :
    ∀ n, n ≤ 3 → ∃ hist w, (demoScript s).Runs dbg 0 eq lt hist w ∧ hist.length = n := by
  intro n
  induction n with
  | zero => exact fun _ => ⟨[], _, .start, rfl⟩
  | succ n ih =>
    intro hn
    obtain ⟨hist, w, hr, hl⟩ := ih (by omega)
    obtain ⟨A, g1, _, _, h⟩ := C84_fork_join dbg 0 eq lt _ (demoScript_legal eq lt s) hr
    have hd := demoScript_done hs g1
    have hsome : ∃ workers, demoScript s hist = some workers := by
      match hist, hl, hd with
      | [], _, _ => exact ⟨_, rfl⟩
      | [[t]], _, hd => exact ⟨_, if_pos hd⟩
      | [[_], [t, t']], _, hd => exact ⟨_, if_pos hd⟩
      | [[_], [_, _], [t]], hl, _ => simp at hl; omega
    obtain ⟨workers, hw⟩ := hsome
    obtain ⟨_, _, _, _, trs, w', _, _, _, hr'⟩ := h workers hw [] _ .nil
    exact ⟨_, _, hr', by rw [List.length_append]; simp; omega⟩

example : ∃ hist w, (demoScript [some 5]).Runs true 0 (fun a b => a == b) (fun a b => decide (a < b)) hist w ∧ hist.length = 3 :=
  demoScript_runs true _ _ (by decide) 3 (Nat.le_refl _)

/-- What happens without exceptions, up to the end of the second section. -/
def demoHist : List (List (Trace Nat)) :=
  [[[(.construct 0 (.extents 2 [2, 2] (StorageOrder.cOrder 2) 0), some (.basic .unit)), (.on 0 (.assign [1, 2, 3, 4]), some (.basic .unit))]],
   [[(.construct 1 (.copy 0), some (.basic .unit)), (.on 1 (.write [1, 1] 7), some (.basic .unit))],
    [(.construct 2 (.copy 0), some (.basic .unit)), (.equal 2 [] 0 [], some (.bool true))]]]

/-- The arrays at the end of the second section. -/
def demoArrays : AState Nat := fun x =>
  if x = 0 then some (square [1, 2, 3, 4]) else if x = 1 then some (square [1, 2, 3, 7]) else if x = 2 then some (square [1, 2, 3, 4]) else none

theorem demoScript_reaches (lt : Nat → Nat → Bool) : (demoScript []).Reaches 0 (fun a b => a == b) lt demoHist demoArrays := by
  let A1 : AState Nat := fun x => if x = 0 then some (square [1, 2, 3, 4]) else none
  have r1 : (demoScript []).Reaches 0 (fun a b => a == b) lt (demoHist.take 1) A1 := by
    refine .next (hist := []) (workers := [makeA []]) .start rfl ⟨rfl, fun _ => A1, fun i t tr ht htr => ?_, fun x hx => ?_⟩
    · match i, ht, htr with
      | 0, ht, htr =>
        cases ht; cases htr
        refine ⟨?_, by decide, .inr rfl, Nat.le_refl _, fun _ _ => rfl⟩
        refine .done (tr := [_]) (A := fun x => if x = 0 then some (square [0, 0, 0, 0]) else none) (.done (tr := []) .start rfl ?_) rfl ?_
        · refine congrArg some (Prod.ext rfl (funext fun x => ?_))
          by_cases h0 : x = 0
          · subst h0; rfl
          by_cases h1 : x = 1
          · subst h1; rfl
          by_cases h2 : x = 2
          · subst h2; rfl
          simp [AState.set, Worker.view, A1, h0, h1, h2]
        · refine congrArg some (Prod.ext rfl (funext fun x => ?_))
          by_cases h0 : x = 0
          · subst h0; rfl
          by_cases h1 : x = 1
          · subst h1; rfl
          by_cases h2 : x = 2
          · subst h2; rfl
          simp [AState.set, Worker.view, A1, h0, h1, h2]
    · have := hx (makeA []) (List.mem_singleton.mpr rfl)
      have : x ≠ 0 := by simpa [makeA] using this
      show (if x = 0 then _ else none) = none
      rw [if_neg this]
  refine .next (hist := demoHist.take 1) (workers := [makeB, makeC []]) r1 rfl ⟨rfl, fun i =>
    if i = 0 then fun x => if x = 0 then some (square [1, 2, 3, 4]) else if x = 1 then some (square [1, 2, 3, 7]) else none
    else fun x => if x = 0 then some (square [1, 2, 3, 4]) else if x = 2 then some (square [1, 2, 3, 4]) else none, fun i t tr ht htr => ?_, fun x hx => ?_⟩
  · match i, ht, htr with
    | 0, ht, htr =>
      cases ht; cases htr
      refine ⟨?_, by decide, .inr rfl, Nat.le_refl _, fun x hx => ?_⟩
      · refine .done (tr := [_]) (A := fun x => if x = 0 then some (square [1, 2, 3, 4]) else if x = 1 then some (square [1, 2, 3, 4]) else none)
          (.done (tr := []) .start rfl ?_) rfl ?_
        · refine congrArg some (Prod.ext rfl (funext fun x => ?_))
          by_cases h0 : x = 0
          · subst h0; rfl
          by_cases h1 : x = 1
          · subst h1; rfl
          by_cases h2 : x = 2
          · subst h2; rfl
          simp [AState.set, Worker.view, A1, h0, h1, h2]
        · refine congrArg some (Prod.ext rfl (funext fun x => ?_))
          by_cases h0 : x = 0
          · subst h0; rfl
          by_cases h1 : x = 1
          · subst h1; rfl
          by_cases h2 : x = 2
          · subst h2; rfl
          simp [AState.set, Worker.view, A1, h0, h1, h2]
      · have : x = 1 := by simpa [makeB] using hx
        subst this; rfl
    | 1, ht, htr =>
      cases ht; cases htr
      refine ⟨?_, by decide, .inr rfl, Nat.le_refl _, fun x hx => ?_⟩
      · refine .done (tr := [_]) (A := fun x => if x = 0 then some (square [1, 2, 3, 4]) else if x = 2 then some (square [1, 2, 3, 4]) else none)
          (.done (tr := []) .start rfl ?_) rfl ?_
        · refine congrArg some (Prod.ext rfl (funext fun x => ?_))
          by_cases h0 : x = 0
          · subst h0; rfl
          by_cases h1 : x = 1
          · subst h1; rfl
          by_cases h2 : x = 2
          · subst h2; rfl
          simp [AState.set, Worker.view, A1, h0, h1, h2]
        · rfl
      · have : x = 2 := by simpa [makeC] using hx
        subst this; rfl
  · have h1 := hx makeB (by simp)
    have h2 := hx (makeC []) (by simp)
    have h1 : x ≠ 1 := by simpa [makeB] using h1
    have h2 : x ≠ 2 := by simpa [makeC] using h2
    show demoArrays x = A1 x
    simp [demoArrays, A1, h1, h2]

/-- Without exceptions, every run of two sections, however interleaved, ends with `b` being `{{1,2},{3,7}}` and `c` being `{{1,2},{3,4}}`; the second thread has found its copy equal to `a`. -/
example (dbg : Bool) (hist : List (List (Trace Nat))) (w : World Nat) (hr : (demoScript []).Runs dbg 0 (fun a b => a == b) (fun a b => decide (a < b)) hist w) (hl : hist.length = 2) :
    hist = demoHist ∧ w.Holding demoArrays := by
  obtain ⟨A, h1, h2, _⟩ := C84_fork_join dbg 0 _ _ _ (demoScript_legal _ _ []) hr
  obtain ⟨rfl, rfl⟩ := script_unique 0 _ _ (demoScript_calm _ _) h1 (demoScript_reaches _) hl
  exact ⟨rfl, h2⟩

/-- The hypotheses of `C84_deterministic` are met by such runs in both modes. -/
example : ∃ hist hist' w w', (demoScript []).Runs true 0 (fun a b => a == b) (fun a b => decide (a < b)) hist w ∧
    (demoScript []).Runs false 0 (fun a b => a == b) (fun a b => decide (a < b)) hist' w' ∧ hist.length = 3 ∧ hist = hist' ∧ ∃ A, w.Holding A ∧ w'.Holding A := by
  obtain ⟨hist, w, h1, h2⟩ := demoScript_runs true (fun a b => a == b) (fun a b => decide (a < b)) (s := []) (by decide) 3 (Nat.le_refl _)
  obtain ⟨hist', w', h1', h2'⟩ := demoScript_runs false (fun a b => a == b) (fun a b => decide (a < b)) (s := []) (by decide) 3 (Nat.le_refl _)
  obtain ⟨h3, h4⟩ := C84_deterministic true false 0 _ _ _ (demoScript_legal _ _ []) (demoScript_calm _ _) h1 h1' (by rw [h2, h2'])
  exact ⟨hist, hist', w, w', h1, h1', h2, h3, h4⟩

end MultiArray.Props
