import Verif.Lemmas.ClientCode
import Verif.Props.ProgX

/-
Property theorems C83: threads that run whole programs at the same time — allocating, constructing, destroying, resizing, throwing and catching exceptions —
each on arrays of its own.
-/
set_option autoImplicit false

namespace MultiArray.Props
open MultiArray Spec
variable {T α : Type}

/-- Threads that run any code whose memory operations are modelled here, each on memory of its own and on shared blocks that none of them changes.
If each of them, running alone, would neither run into undefined behaviour nor fail an assertion, then however their operations are interleaved and wherever the
allocator puts their blocks: no two threads ever race; no thread is ever stuck; thread `i` ends after exactly as many operations as alone; storage that belongs to
none of them and shared blocks are untouched; and a thread that has ended has returned or thrown what it would alone, and left in its memory what it would
have left alone; every block in use at the end belongs to a thread's memory or is one of the untouched ones. -/
theorem C83_isolated_threads {B : Nat → Nat → Prop} {c : CPool T α} {ms : Nat → St T} (hs : c.Splits ms B)
    (hc : ∀ (i : Nat) (t : CThread T α), c.threads[i]? = some t → t.code.Completes (ms i))
    (hsp : ∀ (i : Nat) (t : CThread T α), c.threads[i]? = some t → t.code.Spares (B i) (ms i)) {is : List Nat} {c' : CPool T α} (hr : CRun c is c') :
    ¬ c'.Racing ∧
    (∀ (i : Nat) (t' : CThread T α), c'.threads[i]? = some t' → ¬ t'.Ended → ∃ c2, CStep c' i c2) ∧
    (∀ (i : Nat) (t t' : CThread T α), c.threads[i]? = some t → c'.threads[i]? = some t' →
      is.count i ≤ t.code.steps (ms i) ∧ (t'.Ended ↔ is.count i = t.code.steps (ms i))) ∧
    (∀ a, c.Foreign ms a → c'.heap a = c.heap a) ∧
    ∃ ms', c'.Splits ms' B ∧
      (∀ (i : Nat) (t t' : CThread T α), c.threads[i]? = some t → c'.threads[i]? = some t' → t'.Ended →
        (∀ a s, t.code.exec (ms i) = .ok a s → t'.code = .ret a ∧ ms' i = s) ∧ (∀ s, t.code.exec (ms i) = .throw s → t'.code = .throw ∧ ms' i = s)) ∧
      (∀ (i : Nat) (t t' : CThread T α) (b : Nat), c.threads[i]? = some t → c'.threads[i]? = some t' → (ms i).heap b ≠ none → B i b →
        t'.env b = t.env b ∧ c'.heap (t.env b) = c.heap (t.env b)) ∧
      (∀ a, c'.heap a ≠ none → c.Foreign ms a ∨ ∃ (i : Nat) (t' : CThread T α) (b : Nat), c'.threads[i]? = some t' ∧ (ms' i).heap b ≠ none ∧ t'.env b = a) := by
  obtain ⟨ms', r⟩ := run_sim hs hc hsp hr
  have hold : ∀ (i : Nat) (t' : CThread T α), c'.threads[i]? = some t' → ∃ t, c.threads[i]? = some t := by
    intro i t' h
    have hi : i < c'.threads.length := by
      rcases Nat.lt_or_ge i c'.threads.length with h' | h'
      · exact h'
      · rw [List.getElem?_eq_none h'] at h; cases h
    rw [r.len] at hi
    exact ⟨_, List.getElem?_eq_getElem hi⟩
  have hc' : ∀ (i : Nat) (t' : CThread T α), c'.threads[i]? = some t' → t'.code.Completes (ms' i) := by
    intro i t' h
    obtain ⟨t, ht⟩ := hold i t' h
    unfold Code.Completes
    rw [(r.thread _ _ _ ht h).1]
    exact hc _ _ ht
  have hsp' : ∀ (i : Nat) (t' : CThread T α), c'.threads[i]? = some t' → t'.code.Spares (B i) (ms' i) := by
    intro i t' h
    obtain ⟨t, ht⟩ := hold i t' h
    exact (r.thread _ _ _ ht h).2.2.1
  refine ⟨no_race r.splits hc' hsp', fun i t' h hne => step_exists r.splits h (hc' _ _ h) hne, ?_, fun a ha => (r.foreign a ha).1, ms', r.splits, ?_, ?_, ?_⟩
  · intro i t t' h h'
    have e := (r.thread _ _ _ h h').2.1
    refine ⟨by omega, fun hE => ?_, fun hE => steps_ended (hc' _ _ h') (by omega)⟩
    rw [ended_steps hE] at e; omega
  · intro i t t' h h' hE
    have e := (r.thread _ _ _ h h').1
    rcases hE with ⟨a0, hE⟩ | hE
    · rw [hE] at e
      have e : Out.ok a0 (ms' i) = t.code.exec (ms i) := e
      refine ⟨fun a s h1 => ?_, fun s h1 => ?_⟩
      · rw [h1] at e; cases e; exact ⟨hE, rfl⟩
      · rw [h1] at e; cases e
    · rw [hE] at e
      have e : Out.throw (ms' i) = t.code.exec (ms i) := e
      refine ⟨fun a s h1 => ?_, fun s h1 => ?_⟩
      · rw [h1] at e; cases e
      · rw [h1] at e; cases e; exact ⟨hE, rfl⟩
  · intro i t t' b h h' hb hB
    obtain ⟨e1, e2⟩ := (r.thread _ _ _ h h').2.2.2 b hb hB
    refine ⟨e1, ?_⟩
    obtain ⟨blk, hblk⟩ := Option.ne_none_iff_exists'.mp hb
    rw [((hs.sees _ _ h).block _ _ hblk).2, ← e1]
    exact ((r.splits.sees _ _ h').block _ _ (by rw [e2]; exact hblk)).2
  · intro a ha
    by_cases hx : ∃ (i : Nat) (t' : CThread T α) (b : Nat), c'.threads[i]? = some t' ∧ (ms' i).heap b ≠ none ∧ t'.env b = a
    · exact .inr hx
    · exact .inl (r.accounted a ⟨ha, fun i t' b h hb e => hx ⟨i, t', b, h, hb, e⟩⟩)

/-- Hypotheses met: two threads read the same shared block and each makes a copy of an element in a block of its own; both return the element, whatever the interleaving. -/
example (is : List Nat) (c' : CPool Nat Nat)
    (hr : CRun ⟨fun a => if a = 1 then some ⟨0, [.obj 42, .obj 43]⟩ else none, List.replicate 2
      ⟨.load ⟨1, 1⟩ (fun v => .alloc 0 1 (fun q => .construct v q (.ret v) .throw) .throw), 2, [], id⟩⟩ is c') :
    ¬ c'.Racing ∧ c'.heap 1 = some ⟨0, [.obj 42, .obj 43]⟩ ∧ ∀ t ∈ c'.threads, t.Ended → t.code = .ret 43 := by
  have hthr : ∀ (i : Nat) (t : CThread Nat Nat), (List.replicate 2 (⟨.load ⟨1, 1⟩ (fun v => .alloc 0 1 (fun q => .construct v q (.ret v) .throw) .throw), 2, [], id⟩ :
      CThread Nat Nat))[i]? = some t → t = ⟨.load ⟨1, 1⟩ (fun v => .alloc 0 1 (fun q => .construct v q (.ret v) .throw) .throw), 2, [], id⟩ :=
    fun i t h => List.eq_of_mem_replicate (List.mem_of_getElem? h)
  let m : St Nat := ⟨fun a => if a = 1 then some ⟨0, [.obj 42, .obj 43]⟩ else none, 2, []⟩
  have hs : (⟨fun a => if a = 1 then some ⟨0, [.obj 42, .obj 43]⟩ else none, List.replicate 2
      ⟨.load ⟨1, 1⟩ (fun v => .alloc 0 1 (fun q => .construct v q (.ret v) .throw) .throw), 2, [], id⟩⟩ : CPool Nat Nat).Splits (fun _ => m) (fun _ b => b = 1) := by
    have hm : ∀ b, m.heap b ≠ none → b = 1 := by
      intro b h
      by_cases e : b = 1
      · exact e
      · exact absurd (show m.heap b = none from if_neg e) h
    refine ⟨fun i t h => ?_, fun i j t t' b b' _ _ hb hb' _ => .inr ⟨hm b hb, hm b' hb'⟩, ⟨2, fun a ha => if_neg (by omega)⟩, rfl⟩
    rw [hthr i t h]
    refine ⟨rfl, rfl, fun b blk hb => ⟨?_, hb⟩⟩
    have := hm b (by rw [hb]; simp)
    rw [this]; exact Nat.lt_succ_self 1
  have hex : ∃ s, (.load ⟨1, 1⟩ (fun v => .alloc 0 1 (fun q => .construct v q (.ret v) .throw) .throw) : Code Nat Nat).exec m = .ok 43 s := by
    have e : (Out.val? ((.load ⟨1, 1⟩ (fun v => .alloc 0 1 (fun q => .construct v q (.ret v) .throw) .throw) : Code Nat Nat).exec m)).map Prod.fst = some 43 := by decide +kernel
    obtain ⟨⟨v, s⟩, e1, e2⟩ := Option.map_eq_some_iff.mp e
    cases e2
    exact ⟨s, val_ok e1⟩
  obtain ⟨s, hex⟩ := hex
  obtain ⟨h1, _, _, _, ms', _, h6, h7, _⟩ := C83_isolated_threads hs
    (fun i t h => by rw [hthr i t h]; exact .inl ⟨43, s, hex⟩) (fun i t h => by rw [hthr i t h]; exact ⟨(by decide : ¬ (2 : Nat) = 1), trivial⟩) hr
  obtain ⟨_, r⟩ := run_sim hs (fun i t h => by rw [hthr i t h]; exact .inl ⟨43, s, hex⟩) (fun i t h => by rw [hthr i t h]; exact ⟨(by decide : ¬ (2 : Nat) = 1), trivial⟩) hr
  have hlen : c'.threads.length = 2 := r.len
  refine ⟨h1, ?_, fun t ht hE => ?_⟩
  · have ht : c'.threads[0]? = some c'.threads[0] := List.getElem?_eq_getElem (by rw [hlen]; decide)
    exact (h7 0 _ _ 1 rfl ht (by simp [m]) rfl).2
  · obtain ⟨i, ht⟩ := List.mem_iff_getElem?.mp ht
    have hi : i < 2 := by
      rcases Nat.lt_or_ge i c'.threads.length with h' | h'
      · omega
      · rw [List.getElem?_eq_none h'] at ht; cases ht
    exact ((h6 i _ t (by rw [List.getElem?_replicate, if_pos hi]) ht hE).1 43 s hex).1

/-- The array object, placed where it is in the pool's memory, holds what it holds in the thread's own memory. -/
theorem holds_placed {H : Nat → Option (Block T)} {t : CThread T α} {m : St T} (hsee : t.Sees H m) (h0 : H 0 = none) {a : MArr} {abs : AbsArr T} (h : Holds m a abs) :
    Holds ⟨H, t.next, t.sched⟩ (a.placed t.env) abs := by
  obtain ⟨o, h1, h2, h3⟩ := h
  have hb := (hsee.block _ _ o.block).2
  refine ⟨⟨o.reach.setBase _, o.start, ?_, ?_, o.count, hb, o.len⟩, h1, h2, h3⟩
  · intro e
    have e : t.env a.ref.data.blk = 0 := e
    rw [e, h0] at hb; cases hb
  · show (⟨t.env a.ownBase.blk, a.ownBase.off⟩ : Ptr) = ⟨t.env a.ref.data.blk, a.ref.data.off⟩
    rw [o.own]

/-- Any number of threads, each running a whole client program on arrays of its own, with any exceptions thrown in any of them, in either build mode; the memory
may already contain other things.  However the threads' memory operations are interleaved and wherever the allocator puts their arrays (reusing freed storage as it
likes): no two threads ever race and none is ever stuck (no undefined behaviour, no failed assertion); what was in memory before is untouched; thread `i` ends after exactly as many operations as
it would perform alone; and a thread that has ended — even while others go on — has done exactly what it would have done alone: what its commands returned and threw is the same, it is a possible run of the abstract
machine, and each of its variables holds the array the abstract machine says, in storage shared with no other variable of any thread.  When all have ended, all
storage that was not there before belongs to a variable of some thread, except at most one block per construction or resize that threw. -/
theorem C83_concurrent_clients (dbg : Bool) (dflt : T) (eq lt : T → T → Bool) (jobs : List (Job T)) (hk : ∀ j ∈ jobs, j.client.Legal dflt eq lt)
    (H : Nat → Option (Block T)) (hH : ∃ N, ∀ a, N ≤ a → H a = none) (h0 : H 0 = none) {is : List Nat} {c : CPool T (Trace T × Objs)}
    (hr : CRun ⟨H, jobs.map (Job.thread dbg dflt eq lt)⟩ is c) :
    ¬ c.Racing ∧
    (∀ (i : Nat) (t : CThread T (Trace T × Objs)), c.threads[i]? = some t → ¬ t.Ended → ∃ c2, CStep c i c2) ∧
    (∀ (i : Nat) (j : Job T) (t : CThread T (Trace T × Objs)), jobs[i]? = some j → c.threads[i]? = some t →
      is.count i ≤ (j.thread dbg dflt eq lt).code.steps (World.start j.sched).st ∧
      (t.Ended ↔ is.count i = (j.thread dbg dflt eq lt).code.steps (World.start j.sched).st)) ∧
    (∀ a, H a ≠ none → c.heap a = H a) ∧
    ∃ (A : Nat → AState T) (L : Nat → List Nat),
      (∀ (i : Nat) (j : Job T) (t : CThread T (Trace T × Objs)), jobs[i]? = some j → c.threads[i]? = some t → t.Ended →
        ∃ tr w, j.client.run dbg dflt eq lt j.count [] (World.start j.sched) = some (tr, w) ∧ t.code = .ret (tr, w.objs) ∧
          j.client.Reaches dflt eq lt tr (A i) ∧ (tr.length = j.count ∨ j.client tr = none) ∧ throws tr ≤ (j.sched.filter Option.isSome).length ∧
          (∀ x, w.objs x = none ↔ A i x = none) ∧
          (∀ x a abs, w.objs x = some a → A i x = some abs → Holds (c.mem t) (a.placed t.env) abs) ∧
          (L i).length ≤ thrownAllocs tr) ∧
      (∀ (i i' : Nat) (t t' : CThread T (Trace T × Objs)) tr o tr' o' x x' a a', c.threads[i]? = some t → c.threads[i']? = some t' →
        t.code = .ret (tr, o) → t'.code = .ret (tr', o') → o x = some a → o' x' = some a' → (i ≠ i' ∨ x ≠ x') →
        (a.placed t.env).ref.data.blk ≠ (a'.placed t'.env).ref.data.blk ∧ H (a.placed t.env).ref.data.blk = none) ∧
      (c.Ended → ∀ a, c.heap a ≠ none → H a ≠ none ∨ (∃ i, i < jobs.length ∧ a ∈ L i) ∨
        ∃ (i : Nat) (t : CThread T (Trace T × Objs)) (tr : Trace T) (o : Objs) (x : Nat) (arr : MArr), c.threads[i]? = some t ∧ t.code = .ret (tr, o) ∧
          o x = some arr ∧ (arr.placed t.env).ref.data.blk = a) := by
  -- the jobs running alone
  have hsolo : ∀ i : Nat, ∃ (R : Trace T × World T) (A : AState T) (L : List Nat), ∀ j, jobs[i]? = some j →
      j.client.run dbg dflt eq lt j.count [] (World.start j.sched) = some R ∧ j.client.Reaches dflt eq lt R.1 A ∧
      (R.1.length = j.count ∨ j.client R.1 = none) ∧ throws R.1 ≤ (j.sched.filter Option.isSome).length ∧
      (∀ x, R.2.objs x = none ↔ A x = none) ∧ (∀ x a abs, R.2.objs x = some a → A x = some abs → Holds R.2.st a abs) ∧
      (∀ x y a b, R.2.objs x = some a → R.2.objs y = some b → x ≠ y → a.ref.data.blk ≠ b.ref.data.blk) ∧ L.length ≤ thrownAllocs R.1 ∧
      (∀ b, R.2.st.heap b ≠ none → b ∈ L ∨ ∃ x a, R.2.objs x = some a ∧ a.ref.data.blk = b) := by
    intro i
    cases hj : jobs[i]? with
    | none => exact ⟨([], World.start []), fun _ => none, [], fun j h => by cases h⟩
    | some j =>
      obtain ⟨tr, w, A, e1, e2, e3, e4, e5, e6, e7, L, e8, e9⟩ :=
        C71_client_under_exceptions dbg dflt eq lt j.client (hk j (List.mem_of_getElem? hj)) j.sched j.count
      exact ⟨(tr, w), A, L, fun j' h => by cases h; exact ⟨e1, e2, e3, e4, e5, e6, e7, e8, e9⟩⟩
  choose R A L hRA using hsolo
  let ms : Nat → St T := fun i => ⟨fun _ => none, 1, (jobs[i]?.map Job.sched).getD []⟩
  have hthr : ∀ (i : Nat) (t : CThread T (Trace T × Objs)), (jobs.map (Job.thread dbg dflt eq lt))[i]? = some t →
      ∃ j, jobs[i]? = some j ∧ t = j.thread dbg dflt eq lt := by
    intro i t h
    rw [List.getElem?_map] at h
    cases hj : jobs[i]? with
    | none => rw [hj] at h; cases h
    | some j => rw [hj] at h; cases h; exact ⟨j, rfl, rfl⟩
  have hms : ∀ (i : Nat) (j : Job T), jobs[i]? = some j → ms i = (World.start j.sched : World T).st := by
    intro i j h
    show (⟨fun _ => none, 1, (jobs[i]?.map Job.sched).getD []⟩ : St T) = _
    rw [h]; rfl
  have hexec : ∀ (i : Nat) (j : Job T), jobs[i]? = some j → (j.thread dbg dflt eq lt).code.exec (ms i) = .ok ((R i).1, (R i).2.objs) (R i).2.st := by
    intro i j h
    rw [hms i j h]
    exact exec_client dbg dflt eq lt j.client j.count (hRA i j h).1
  have hs : (⟨H, jobs.map (Job.thread dbg dflt eq lt)⟩ : CPool T (Trace T × Objs)).Splits ms (fun _ _ => False) := by
    refine ⟨fun i t h => ?_, fun i _ _ _ b _ _ _ hb => absurd rfl hb, hH, h0⟩
    obtain ⟨j, hj, rfl⟩ := hthr i t h
    rw [hms i j hj]
    exact ⟨rfl, rfl, fun b blk hb => by cases hb⟩
  obtain ⟨g1, g2, g3, g4, ms', g5, g6, _, g8⟩ := C83_isolated_threads hs
    (fun i t h => by obtain ⟨j, hj, rfl⟩ := hthr i t h; exact .inl ⟨_, _, hexec i j hj⟩) (fun i t _ => spares_none _ _) hr
  have hlen : c.threads.length = jobs.length := by
    obtain ⟨_, r⟩ := run_sim hs (fun i t h => by obtain ⟨j, hj, rfl⟩ := hthr i t h; exact .inl ⟨_, _, hexec i j hj⟩) (fun i t _ => spares_none _ _) hr
    rw [r.len, List.length_map]
  have hjob : ∀ (i : Nat) (t : CThread T (Trace T × Objs)), c.threads[i]? = some t → ∃ j, jobs[i]? = some j := by
    intro i t h
    have hi : i < c.threads.length := by
      rcases Nat.lt_or_ge i c.threads.length with h' | h'
      · exact h'
      · rw [List.getElem?_eq_none h'] at h; cases h
    rw [hlen] at hi
    exact ⟨_, List.getElem?_eq_getElem hi⟩
  have hfirst : ∀ (i : Nat) (j : Job T), jobs[i]? = some j → (jobs.map (Job.thread dbg dflt eq lt))[i]? = some (j.thread dbg dflt eq lt) := by
    intro i j h; rw [List.getElem?_map, h]; rfl
  -- a thread that has ended
  have hend : ∀ (i : Nat) (j : Job T) (t : CThread T (Trace T × Objs)), jobs[i]? = some j → c.threads[i]? = some t → t.Ended →
      t.code = .ret ((R i).1, (R i).2.objs) ∧ ms' i = (R i).2.st := by
    intro i j t hj ht hE
    exact (g6 i _ t (hfirst i j hj) ht hE).1 _ _ (hexec i j hj)
  have hret : ∀ (i : Nat) (t : CThread T (Trace T × Objs)) tr o, c.threads[i]? = some t → t.code = .ret (tr, o) →
      ∃ j, jobs[i]? = some j ∧ o = (R i).2.objs ∧ ms' i = (R i).2.st := by
    intro i t tr o ht hcode
    obtain ⟨j, hj⟩ := hjob i t ht
    obtain ⟨e1, e2⟩ := hend i j t hj ht (.inl ⟨_, hcode⟩)
    rw [hcode] at e1
    cases e1
    exact ⟨j, hj, rfl, e2⟩
  have hforeign : ∀ a, (⟨H, jobs.map (Job.thread dbg dflt eq lt)⟩ : CPool T (Trace T × Objs)).Foreign ms a ↔ H a ≠ none :=
    fun a => ⟨fun h => h.1, fun h => ⟨h, fun i t b _ hb => absurd rfl hb⟩⟩
  -- the storage of a variable of a thread that has ended
  have hown : ∀ (i : Nat) (j : Job T), jobs[i]? = some j → ∀ x a, (R i).2.objs x = some a → ∃ blk, (R i).2.st.heap a.ref.data.blk = some blk := by
    intro i j hj x a hx
    obtain ⟨_, _, _, _, e5, e6, _⟩ := hRA i j hj
    cases hA : A i x with
    | none => rw [(e5 x).mpr hA] at hx; cases hx
    | some abs => exact ⟨_, (e6 x a abs hx hA).owns.block⟩
  refine ⟨g1, g2, fun i j t hj ht => ?_, fun a ha => g4 a ((hforeign a).mpr ha), A,
    fun i => match c.threads[i]? with | some t => (L i).map t.env | none => [], ?_, ?_, ?_⟩
  · have := g3 i _ t (hfirst i j hj) ht
    rwa [hms i j hj] at this
  · intro i j t hj ht hE
    obtain ⟨e1, e2⟩ := hend i j t hj ht hE
    obtain ⟨r1, r2, r3, r4, r5, r6, _, r8, _⟩ := hRA i j hj
    refine ⟨(R i).1, (R i).2, r1, e1, r2, r3, r4, r5, ?_, ?_⟩
    · intro x a abs hx hA
      have hsee := g5.sees i t ht
      rw [e2] at hsee
      exact holds_placed hsee g5.null (r6 x a abs hx hA)
    · dsimp only; rw [ht]; simp only [List.length_map]; exact r8
  · intro i i' t t' tr o tr' o' x x' a a' ht ht' hcode hcode' hx hx' hne
    obtain ⟨j, hj, rfl, e2⟩ := hret i t tr o ht hcode
    obtain ⟨j', hj', rfl, e2'⟩ := hret i' t' tr' o' ht' hcode'
    obtain ⟨blk, hblk⟩ := hown i j hj x a hx
    obtain ⟨blk', hblk'⟩ := hown i' j' hj' x' a' hx'
    have hl : (ms' i).heap a.ref.data.blk ≠ none := by rw [e2, hblk]; simp
    have hl' : (ms' i').heap a'.ref.data.blk ≠ none := by rw [e2', hblk']; simp
    constructor
    · intro he
      rcases g5.apart i i' t t' _ _ ht ht' hl hl' he with ⟨h1, h2⟩ | ⟨h1, _⟩
      · subst h1
        rcases hne with hne | hne
        · exact hne rfl
        · exact (hRA i j hj).2.2.2.2.2.2.1 x x' a a' hx hx' hne h2
      · exact h1
    · show H (t.env a.ref.data.blk) = none
      cases hH' : H (t.env a.ref.data.blk) with
      | none => rfl
      | some blk0 =>
        exfalso
        obtain ⟨_, r⟩ := run_sim hs (fun i t h => by obtain ⟨j, hj, rfl⟩ := hthr i t h; exact .inl ⟨_, _, hexec i j hj⟩) (fun i t _ => spares_none _ _) hr
        have hf := (hforeign _).mpr (show H (t.env a.ref.data.blk) ≠ none by rw [hH']; simp)
        have hf' := (r.foreign _ hf).2
        have e3 := r.thread i _ t (hfirst i j hj) ht
        rw [hcode] at e3
        have e4 := e3.1
        rw [hexec i j hj] at e4
        simp only [Code.exec, Out.ok.injEq] at e4
        exact hf'.2 i t _ ht (by rw [e4.2, hblk]; simp) rfl
  · intro hE a ha
    rcases g8 a ha with h | ⟨i, t, b, ht, hb, he⟩
    · exact .inl ((hforeign a).mp h)
    · right
      obtain ⟨j, hj⟩ := hjob i t ht
      have hi : i < jobs.length := by
        rcases Nat.lt_or_ge i jobs.length with h' | h'
        · exact h'
        · rw [List.getElem?_eq_none h'] at hj; cases hj
      obtain ⟨e1, e2⟩ := hend i j t hj ht (hE t (List.mem_of_getElem? ht))
      rw [e2] at hb
      rcases (hRA i j hj).2.2.2.2.2.2.2.2 b hb with h1 | ⟨x, arr, h1, h2⟩
      · refine .inl ⟨i, hi, ?_⟩
        dsimp only
        rw [ht]
        exact List.mem_map.mpr ⟨b, h1, he⟩
      · exact .inr ⟨i, t, _, _, x, arr, ht, e1, h1, by show t.env arr.ref.data.blk = a; rw [h2]; exact he⟩

/-- Every such run can be completed: from wherever the threads are, some continuation ends them all.  (By `C83_concurrent_clients` every continuation does so after the same
number of operations.) -/
theorem C83_completable (dbg : Bool) (dflt : T) (eq lt : T → T → Bool) (jobs : List (Job T)) (hk : ∀ j ∈ jobs, j.client.Legal dflt eq lt)
    (H : Nat → Option (Block T)) (hH : ∃ N, ∀ a, N ≤ a → H a = none) (h0 : H 0 = none) {is : List Nat} {c : CPool T (Trace T × Objs)}
    (hr : CRun ⟨H, jobs.map (Job.thread dbg dflt eq lt)⟩ is c) : ∃ js c', CRun c js c' ∧ c'.Ended := by
  let ms : Nat → St T := fun i => ⟨fun _ => none, 1, (jobs[i]?.map Job.sched).getD []⟩
  have hthr : ∀ (i : Nat) (t : CThread T (Trace T × Objs)), (jobs.map (Job.thread dbg dflt eq lt))[i]? = some t →
      ∃ j, jobs[i]? = some j ∧ t = j.thread dbg dflt eq lt := by
    intro i t h
    rw [List.getElem?_map] at h
    cases hj : jobs[i]? with
    | none => rw [hj] at h; cases h
    | some j => rw [hj] at h; cases h; exact ⟨j, rfl, rfl⟩
  have hms : ∀ (i : Nat) (j : Job T), jobs[i]? = some j → ms i = (World.start j.sched : World T).st := by
    intro i j h
    show (⟨fun _ => none, 1, (jobs[i]?.map Job.sched).getD []⟩ : St T) = _
    rw [h]; rfl
  have hs : (⟨H, jobs.map (Job.thread dbg dflt eq lt)⟩ : CPool T (Trace T × Objs)).Splits ms (fun _ _ => False) := by
    refine ⟨fun i t h => ?_, fun i _ _ _ b _ _ _ hb => absurd rfl hb, hH, h0⟩
    obtain ⟨j, hj, rfl⟩ := hthr i t h
    rw [hms i j hj]
    exact ⟨rfl, rfl, fun b blk hb => by cases hb⟩
  have hc : ∀ (i : Nat) (t : CThread T (Trace T × Objs)), (jobs.map (Job.thread dbg dflt eq lt))[i]? = some t → t.code.Completes (ms i) := by
    intro i t h
    obtain ⟨j, hj, rfl⟩ := hthr i t h
    obtain ⟨tr, w, A, e1, _⟩ := C71_client_under_exceptions dbg dflt eq lt j.client (hk j (List.mem_of_getElem? hj)) j.sched j.count
    rw [hms i j hj]
    exact .inl ⟨_, _, exec_client dbg dflt eq lt j.client j.count e1⟩
  obtain ⟨ms', r⟩ := run_sim hs hc (fun i t _ => spares_none _ _) hr
  refine finish_all r.splits (fun i t' h => ?_) (fun i t' h => spares_none _ _)
  have hi : i < c.threads.length := by
    rcases Nat.lt_or_ge i c.threads.length with h' | h'
    · exact h'
    · rw [List.getElem?_eq_none h'] at h; cases h
  rw [r.len] at hi
  have ht := List.getElem?_eq_getElem hi
  unfold Code.Completes
  rw [(r.thread i _ t' ht h).1]
  exact hc i _ ht

/-- Two threads, each running the program of `demoClient` (which constructs, fills, copies, resizes and destroys arrays and retries whatever throws) for 20 commands with different
exceptions, in a memory that already contains a block.  Whatever the interleaving and the placement: a run that has ended both threads exists, and the
first thread has returned the elements it should. -/
def demoJobs : List (Job Nat) :=
  [⟨demoClient, 20, [none, none, some 0] ++ List.replicate 13 none ++ [some 0] ++ List.replicate 21 none ++ [some 7]⟩, ⟨demoClient, 20, [some 3, none, some 1]⟩]

def demoHeap : Nat → Option (Block Nat) := fun a => if a = 1 then some ⟨0, [.obj 42]⟩ else none

example : ∃ is c, CRun ⟨demoHeap, demoJobs.map (Job.thread true 0 (fun a b => a == b) (fun a b => decide (a < b)))⟩ is c ∧ c.Ended ∧ ¬ c.Racing ∧
    c.heap 1 = some ⟨0, [.obj 42]⟩ ∧ ∀ t, c.threads[0]? = some t → ∃ tr o, t.code = .ret (tr, o) ∧ tr.map (fun p => p.2) =
      [none, some (.basic .unit), some (.basic .unit), none, some (.basic .unit), none, some (.basic .unit), some (.values [1, 2, 4, 5, 0, 0]),
        some (.basic .unit), some (.basic .unit)] := by
  have hk : ∀ j ∈ demoJobs, j.client.Legal 0 (fun a b => a == b) (fun a b => decide (a < b)) := by
    intro j hj
    simp only [demoJobs, List.mem_cons, List.not_mem_nil, or_false] at hj
    rcases hj with rfl | rfl <;> exact demoClient_legal _ _
  have hH : ∃ N, ∀ a, N ≤ a → demoHeap a = none := ⟨2, fun a ha => by unfold demoHeap; rw [if_neg (by omega)]⟩
  obtain ⟨is, c, hr, hE⟩ := C83_completable true 0 (fun a b => a == b) (fun a b => decide (a < b)) demoJobs hk demoHeap hH rfl .nil
  obtain ⟨h1, _, _, h4, A, L, h5, _⟩ := C83_concurrent_clients true 0 (fun a b => a == b) (fun a b => decide (a < b)) demoJobs hk demoHeap hH rfl hr
  refine ⟨is, c, hr, hE, h1, by rw [h4 1 (by decide)]; rfl, fun t ht => ?_⟩
  obtain ⟨tr, w, e1, e2, _⟩ := h5 0 _ t rfl ht (hE t (List.mem_of_getElem? ht))
  refine ⟨tr, w.objs, e2, ?_⟩
  have e3 : (demoClient.run true 0 (fun a b => a == b) (fun a b => decide (a < b)) 20 []
      (World.start ([none, none, some 0] ++ List.replicate 13 none ++ [some 0] ++ List.replicate 21 none ++ [some 7]))).map
        (fun r => r.1.map (fun p => p.2)) =
    some [none, some (.basic .unit), some (.basic .unit), none, some (.basic .unit), none, some (.basic .unit), some (.values [1, 2, 4, 5, 0, 0]),
      some (.basic .unit), some (.basic .unit)] := by
    decide +kernel
  rw [show demoClient.run true 0 (fun a b => a == b) (fun a b => decide (a < b)) 20 []
      (World.start ([none, none, some 0] ++ List.replicate 13 none ++ [some 0] ++ List.replicate 21 none ++ [some 7])) = some (tr, w) from e1] at e3
  exact Option.some.inj e3

end MultiArray.Props
