import Verif.Lemmas.ShareXStep
import Verif.Props.Share

/-
Property theorem C77: programs with shared storage in which allocation, element construction and element assignment may throw at any point, any number of times; the
client catches the exceptions and goes on (it may look at everything that happened so far).
-/
set_option autoImplicit false

namespace MultiArray.Props
open MultiArray Spec
variable {T : Type}

theorem sThrownAllocs_snoc (tr : STrace T) (c : SCmd T) (o : Option (CObs T)) :
    sThrownAllocs (tr ++ [(c, o)]) = sThrownAllocs tr + (if c.allocates && o.isNone then 1 else 0) := by
  unfold sThrownAllocs
  rw [List.filter_append, List.length_append]
  by_cases h : (c.allocates && o.isNone) = true
  · simp [h]
  · simp [h]

theorem sThrows_snoc (tr : STrace T) (c : SCmd T) (o : Option (CObs T)) : sThrows (tr ++ [(c, o)]) = sThrows tr + (if o.isNone then 1 else 0) := by
  unfold sThrows
  rw [List.filter_append, List.length_append]
  cases o <;> simp

theorem sclient_run (dbg : Bool) (dflt : T) (eq lt : T → T → Bool) (k : SClient T) (hk : k.Legal dflt eq lt) (n : Nat) {tr : STrace T}
    {L : List Nat} {w : SWorld T} {A : SState T} (hr : k.Reaches dflt eq lt tr A) (h : InvS L w A) (hL : L.length ≤ sThrownAllocs tr) {m : Nat}
    (hm : sThrows tr + due w.st ≤ m) :
    ∃ tr' L' w' A', sThrows tr' + due w'.st ≤ m ∧ k.run dbg dflt eq lt n tr w = some (tr', w') ∧ k.Reaches dflt eq lt tr' A' ∧ InvS L' w' A' ∧
      L'.length ≤ sThrownAllocs tr' ∧ (tr'.length = tr.length + n ∨ k tr' = none) := by
  induction n generalizing tr L w A with
  | zero => exact ⟨tr, L, w, A, hm, rfl, hr, h, hL, .inl rfl⟩
  | succ n ih =>
    cases hc : k tr with
    | none => exact ⟨tr, L, w, A, hm, by simp only [SClient.run, hc], hr, h, hL, .inr hc⟩
    | some c =>
      have hf := sfair dbg dflt eq lt w c
      rcases scmd_x dbg dflt eq lt h c (hk tr A c hr hc) with ⟨o, A1, w1, e1, e2, e3⟩ | ⟨w1, L1, A1, e1, e2, e3, e4⟩
      · rw [e2] at hf
        obtain ⟨tr', L', w', A', f0, f1, f2, f3, f4, f5⟩ := ih (hr.done hc e1) e3 (by rw [sThrownAllocs_snoc]; omega)
          (by have : due w1.st ≤ due w.st := hf
              rw [sThrows_snoc]; simp; omega)
        refine ⟨tr', L', w', A', f0, by simp only [SClient.run, hc, e2]; exact f1, f2, f3, f4, ?_⟩
        rw [List.length_append] at f5
        rcases f5 with f5 | f5
        · exact .inl (by rw [f5]; simp; omega)
        · exact .inr f5
      · rw [e1] at hf
        obtain ⟨tr', L', w', A', f0, f1, f2, f3, f4, f5⟩ := ih (hr.threw hc e2) e3
          (by rw [sThrownAllocs_snoc]; cases hca : c.allocates <;> simp [hca] at e4 ⊢ <;> omega)
          (by have : due w1.st < due w.st := hf
              rw [sThrows_snoc]; simp; omega)
        refine ⟨tr', L', w', A', f0, by simp only [SClient.run, hc, e1]; exact f1, f2, f3, f4, ?_⟩
        rw [List.length_append] at f5
        rcases f5 with f5 | f5
        · exact .inl (by rw [f5]; simp; omega)
        · exact .inr f5

/-- A whole client program with arrays, `multi_array_ref`s, held views and held subarrays that share storage, for any number `n` of commands and any exceptions
`sched` thrown by the allocator and by element constructors and assignments.  If the client respects the preconditions whatever happens, the library runs into no undefined
behaviour and no failed assertion in either build mode; everything it returned and threw is a possible run of the abstract machine; no command throws unless an exception was
due; the same variables exist; every legal expression on existing storage denotes the bases and extents the abstract machine says and reads the values the abstract machine says
(so an exception thrown while one handle is used is seen by all others exactly as far as the abstract machine says); and at most one block per construction or
`resize` that threw is lost: all other storage belongs to a live array or to a buffer of the client. -/
theorem C77_shared_client_under_exceptions (dbg : Bool) (dflt : T) (eq lt : T → T → Bool) (k : SClient T) (hk : k.Legal dflt eq lt)
    (sched : List (Option T)) (n : Nat) :
    ∃ tr w A, k.run dbg dflt eq lt n [] (SWorld.startX sched) = some (tr, w) ∧ k.Reaches dflt eq lt tr A ∧
      (tr.length = n ∨ k tr = none) ∧ sThrows tr ≤ (sched.filter Option.isSome).length ∧
      (∀ x, w.vars x = none ↔ A.vars x = none) ∧
      (∀ x ss p, A.Part x ss p → ∃ d, w.lookup dbg x ss = some d ∧ d.bases = p.bases ∧ d.extents = p.extents ∧
        ∀ idx, InBox p.bases p.extents idx → ∃ v, A.get p idx = some v ∧ readElem dbg d idx w.st = .ok v w.st) ∧
      ∃ L : List Nat, L.length ≤ sThrownAllocs tr ∧
        ∀ b, w.st.heap b ≠ none → b ∈ L ∨ ∃ x, (∃ a, w.vars x = some (.owner a) ∧ a.ref.data.blk = b) ∨ (∃ q n, w.vars x = some (.buffer q n) ∧ q.blk = b) := by
  have h0 : InvS [] (SWorld.startX sched : SWorld T) SState.start :=
    ⟨(SWorld.start : SWorld T).st, _, ⟨rfl, rfl, fun _ h => (nomatch h), fun _ _ => rfl⟩, share_start⟩
  obtain ⟨tr, L, w, A, e0, e1, e2, ⟨t, g, hc, hr⟩, e4, e5⟩ :=
    sclient_run dbg dflt eq lt k hk n SClient.Reaches.start h0 (Nat.le_refl 0) (m := (sched.filter Option.isSome).length)
      (by show 0 + _ ≤ _; rw [Nat.zero_add]; exact Nat.le_refl _)
  refine ⟨tr, w, A, e1, e2, ?_, by omega, ?_, ?_, L, e4, ?_⟩
  · simpa using e5
  · intro x
    refine ⟨fun hw => ?_, hr.unset⟩
    have hv := hr.var x
    simp only at hv
    rw [hw] at hv
    cases hA : A.vars x with
    | none => rfl
    | some v => rw [hA] at hv; exact hv.elim
  · intro x ss p hp
    obtain ⟨d, hd, hpo, _, hlive⟩ := hr.lookup dbg hp
    refine ⟨d, hd, hpo.bases, hpo.extents, fun idx hin => ?_⟩
    obtain ⟨v, g1, g2⟩ := hr.get hpo hlive hin
    refine ⟨v, g2, ?_⟩
    unfold readElem
    rw [accessElement_inBox dbg d idx hpo.shaped.1 (by rw [hpo.bases, hpo.extents]; exact hin), Exec.lift_ok, pure_bind]
    exact load_ok (hc.get g1)
  · intro b hb
    by_cases hbL : b ∈ L
    · exact .inl hbL
    · right
      obtain ⟨i, hi, hbi⟩ := hr.mem.noLeak b (by show t.heap b ≠ none; rw [hc.same b hbL]; exact hb)
      have hne : A.stores i ≠ none := by
        intro hn
        have := hr.mem.val i hi
        rw [hn] at this
        have h2 : t.heap b = none := by rw [← hbi]; exact this
        exact hb (by rw [← hc.same b hbL]; exact h2)
      obtain ⟨x, hx⟩ := hr.owned i hne
      refine ⟨x, ?_⟩
      match hA : A.vars x with
      | some (.owner hh) =>
        rw [hA] at hx; cases hx
        obtain ⟨a, f1, f2, _⟩ := hr.owner hA
        exact .inl ⟨a, f1, by rw [f2.data]; exact hbi⟩
      | some (.buffer j) =>
        rw [hA] at hx; cases hx
        obtain ⟨q, n, f1, _, f2, _⟩ := hr.buffer hA
        exact .inr ⟨q, n, f1, by rw [f2]; exact hbi⟩
      | none | some (.ref _) | some (.view _) | some (.sub _ _) | some .stale => rw [hA] at hx; exact hx.elim

/-! ### What an interrupted command can have changed -/

theorem put_vars {A A' : SState T} {p : SPart} {idx : List Int} {v : T} (h : A.put p idx v = some A') : A'.vars = A.vars ∧ (∀ i, A.stores i ≠ none → A'.stores i ≠ none) := by
  simp only [SState.put, Option.map_eq_some_iff] at h
  obtain ⟨vs, h1, rfl⟩ := h
  refine ⟨rfl, fun i hi => ?_⟩
  simp only [SState.setStore]
  split
  · exact Option.some_ne_none _
  · exact hi

theorem copyStep_vars (p q : SPart) (ks : List (List Nat)) {A A' : SState T} (h : SState.copy p q ks A = some A') :
    A'.vars = A.vars ∧ (∀ i, A.stores i ≠ none → A'.stores i ≠ none) := by
  induction ks generalizing A with
  | nil => cases h; exact ⟨rfl, fun _ h => h⟩
  | cons k ks ih =>
    simp only [SState.copy, Option.bind_eq_some_iff] at h
    obtain ⟨v, _, A1, h2, h3⟩ := h
    have e1 := put_vars h2
    have e2 := ih h3
    exact ⟨e2.1.trans e1.1, fun i hi => e2.2 i (e1.2 i hi)⟩

theorem put_frame {A A' : SState T} {p : SPart} {idx : List Int} {v : T} (h : A.put p idx v = some A') (q : SPart) (idx' : List Int)
    (hne : ¬ (q.store = p.store ∧ q.place idx' = p.place idx)) : A'.get q idx' = A.get q idx' := by
  simp only [SState.put, Option.map_eq_some_iff] at h
  obtain ⟨vs, h1, rfl⟩ := h
  simp only [SState.get, SState.setStore]
  by_cases hs : q.store = p.store
  · simp only [hs, if_true, Option.bind_some, h1]
    rw [List.getElem?_set_ne (fun e => hne ⟨hs, e.symm⟩)]
  · simp [hs]

theorem copy_frame (p q0 : SPart) (ks : List (List Nat)) {A A' : SState T} (h : SState.copy p q0 ks A = some A') (q : SPart) (idx' : List Int)
    (hne : ∀ k ∈ ks, ¬ (q.store = p.store ∧ q.place idx' = p.place (atPos p.bases k))) : A'.get q idx' = A.get q idx' := by
  induction ks generalizing A with
  | nil => cases h; rfl
  | cons k ks ih =>
    simp only [SState.copy, Option.bind_eq_some_iff] at h
    obtain ⟨v, _, A1, h2, h3⟩ := h
    rw [ih h3 (fun k hk => hne k (by simp [hk])), put_frame h2 q idx' (hne k (by simp))]

theorem map_frame (p : SPart) (f : T → T) (ks : List (List Nat)) {A A' : SState T} (h : SState.map p f ks A = some A') (q : SPart) (idx' : List Int)
    (hne : ∀ k ∈ ks, ¬ (q.store = p.store ∧ q.place idx' = p.place (atPos p.bases k))) : A'.get q idx' = A.get q idx' := by
  induction ks generalizing A with
  | nil => cases h; rfl
  | cons k ks ih =>
    simp only [SState.map, Option.bind_eq_some_iff] at h
    obtain ⟨v, _, A1, h2, h3⟩ := h
    rw [ih h3 (fun k hk => hne k (by simp [hk])), put_frame h2 q idx' (hne k (by simp))]

/-- An exception during an assignment, `copy_array` or `for_each` through one handle changes no element that the destination does not refer to: any other
handle reads the same value as before at every index whose place in the storage is not one of the destination's. -/
theorem C77_interrupted_frame {A A' : SState T} {p q0 : SPart} (f : T → T) (h : A.CopyStopped p q0 A' ∨ A.MapStopped p f A') (q : SPart) (idx' : List Int)
    (hne : ∀ k ∈ positions p.extents, ¬ (q.store = p.store ∧ q.place idx' = p.place (atPos p.bases k))) : A'.get q idx' = A.get q idx' := by
  rcases h with ⟨done, k, rest, A1, junk, h1, h2, h3⟩ | ⟨done, k, rest, A1, junk, h1, h2, h3⟩
  · rw [h1] at hne
    rw [put_frame h3 q idx' (hne k (by simp)), copy_frame p q0 done h2 q idx' (fun k hk => hne k (by simp [hk]))]
  · rw [h1] at hne
    rw [put_frame h3 q idx' (hne k (by simp)), map_frame p f done h2 q idx' (fun k hk => hne k (by simp [hk]))]

/-! ### A client that meets the hypotheses -/

/-- The demonstration client: memory of its own, a `multi_array_ref` over it, an array assigned from the reference and resized; each command is retried until it does not throw. -/
def demoSCmds : List (SCmd Nat) :=
  [.buffer 0 [1, 2, 3, 4, 5, 6],
   .refTo 1 0 0 2 [2, 3] (StorageOrder.cOrder 2),
   .construct 2 (.extents 2 [2, 3] (StorageOrder.cOrder 2) 0),
   .assign 2 [] 1 [],
   .resize 2 [.mk2 0 3, .mk2 0 2],
   .traverse 2 [],
   .destroy 2]

def sCompleted (tr : STrace T) : Nat := (tr.filter (fun p => p.2.isSome)).length

theorem sCompleted_snoc (tr : STrace T) (c : SCmd T) (o : Option (CObs T)) :
    sCompleted (tr ++ [(c, o)]) = sCompleted tr + (if o.isSome then 1 else 0) := by
  unfold sCompleted
  rw [List.filter_append, List.length_append]
  cases o <;> simp

def demoSClient : SClient Nat := fun tr => demoSCmds[sCompleted tr]?

/-- The array that variables 1 and 2 refer to. -/
def demoArr (i : Nat) : SArr := ⟨i, 0, [0, 0], [2, 3], StorageOrder.cOrder 2⟩

/-- The state of the variables when `n` commands have completed. -/
def demoSInv (n : Nat) (A : SState Nat) : Prop :=
  match n with
  | 0 => A = SState.start
  | 1 => ∃ i vs, A.vars 0 = some (.buffer i) ∧ A.stores i = some vs ∧ vs.length = 6 ∧ i < A.count ∧ A.vars 1 = none ∧ A.vars 2 = none
  | 2 => ∃ i, A.vars 1 = some (.ref (demoArr i)) ∧ A.stores i ≠ none ∧ i < A.count ∧ A.vars 2 = none
  | 3 | 4 => ∃ i j, A.vars 1 = some (.ref (demoArr i)) ∧ A.stores i ≠ none ∧ A.vars 2 = some (.owner (demoArr j)) ∧ A.stores j ≠ none
  | 5 | 6 => ∃ h, A.vars 2 = some (.owner h) ∧ A.stores h.store ≠ none
  | _ => True

theorem demoSInv_legal {n : Nat} {A : SState Nat} (h : demoSInv n A) {c : SCmd Nat} (hc : demoSCmds[n]? = some c) : A.Legal c := by
  match n, hc with
  | 0, hc => cases hc; cases h; rfl
  | 1, hc =>
    cases hc; obtain ⟨i, vs, h1, h2, h3, h4, h5, h6⟩ := h
    exact ⟨h5, cOrder_valid 2, rfl, i, 0, vs, by simp only [SState.dataOf, h1], h2, by rw [h3]; decide⟩
  | 2, hc => cases hc; obtain ⟨i, h1, h2, h3, h4⟩ := h; exact ⟨h4, cOrder_valid 2, rfl⟩
  | 3, hc =>
    cases hc; obtain ⟨i, j, h1, h2, h3, h4⟩ := h
    exact ⟨_, _, ⟨_, _, h3, rfl, h4, trivial, rfl⟩, ⟨_, _, h1, rfl, h2, trivial, rfl⟩, rfl⟩
  | 4, hc =>
    cases hc; obtain ⟨i, j, h1, h2, h3, h4⟩ := h
    exact ⟨_, h3, rfl, by decide, (by decide : Representable [0, 0] [2, 3])⟩
  | 5, hc => cases hc; obtain ⟨hh, h1, h2⟩ := h; exact ⟨_, _, _, h1, rfl, h2, trivial, rfl⟩
  | 6, hc => cases hc; obtain ⟨hh, h1, h2⟩ := h; exact ⟨_, h1⟩
  | n + 7, hc => cases hc

theorem demoSInv_done {n : Nat} {A A' : SState Nat} {eq lt : Nat → Nat → Bool} (h : demoSInv n A) {c : SCmd Nat} {o : CObs Nat}
    (hc : demoSCmds[n]? = some c) (hs : A.step 0 eq lt c = some (o, A')) : demoSInv (n + 1) A' := by
  match n, hc with
  | 0, hc => cases hc; cases h; cases hs; exact ⟨0, [1, 2, 3, 4, 5, 6], rfl, rfl, rfl, by decide, rfl, rfl⟩
  | 1, hc =>
    cases hc; obtain ⟨i, vs, h1, h2, h3, h4, h5, h6⟩ := h
    simp only [SState.step, SState.dataOf, h1, Option.map_some, Option.some.injEq, Prod.mk.injEq] at hs
    obtain ⟨_, rfl⟩ := hs
    exact ⟨i, rfl, by show A.stores i ≠ none; rw [h2]; exact Option.some_ne_none _, h4, by simp [SState.setVar, SState.invalidate, h6]⟩
  | 2, hc =>
    cases hc; obtain ⟨i, h1, h2, h3, h4⟩ := h
    simp only [SState.step, SState.initValue, Option.map_some, Option.some.injEq, Prod.mk.injEq] at hs
    obtain ⟨_, rfl⟩ := hs
    refine ⟨i, A.count, by simp [SState.addOwner, SState.setVar, SState.addStore, SState.invalidate, h1], ?_, rfl, ?_⟩
    · simp only [SState.addOwner, SState.setVar, SState.addStore]
      rw [if_neg (by omega)]; exact h2
    · simp [SState.addOwner, SState.setVar, SState.addStore]
  | 3, hc =>
    cases hc; obtain ⟨i, j, h1, h2, h3, h4⟩ := h
    simp only [SState.step, Option.bind_eq_some_iff, Option.map_eq_some_iff, Prod.mk.injEq] at hs
    obtain ⟨p, _, q, _, A1, e1, _, rfl⟩ := hs
    obtain ⟨f1, f2⟩ := copyStep_vars _ _ _ e1
    exact ⟨i, j, by rw [f1]; exact h1, f2 _ h2, by rw [f1]; exact h3, f2 _ h4⟩
  | 4, hc =>
    cases hc; obtain ⟨i, j, h1, h2, h3, h4⟩ := h
    simp only [SState.step, h3, Option.map_eq_some_iff, Prod.mk.injEq] at hs
    obtain ⟨vs, _, _, rfl⟩ := hs
    exact ⟨_, rfl, by simp [SState.addOwner, SState.setVar, SState.addStore, SState.setStore]⟩
  | 5, hc =>
    cases hc; obtain ⟨hh, h1, h2⟩ := h
    simp only [SState.step, Option.bind_eq_some_iff, Option.map_eq_some_iff, Prod.mk.injEq] at hs
    obtain ⟨p, _, vs, _, _, rfl⟩ := hs
    exact ⟨hh, h1, h2⟩
  | 6, hc => trivial
  | n + 7, hc => cases hc

theorem demoSInv_threw {n : Nat} {A A' : SState Nat} (h : demoSInv n A) {c : SCmd Nat} (hc : demoSCmds[n]? = some c) (hs : A.Interrupted c A') :
    demoSInv n A' := by
  match n, hc with
  | 0, hc => cases hc; cases hs
  | 1, hc => cases hc; cases hs
  | 2, hc => cases hc; cases hs; exact h
  | 3, hc =>
    cases hc; obtain ⟨i, j, h1, h2, h3, h4⟩ := h
    obtain ⟨_, p, q, _, _, done, k, rest, A1, junk, _, e1, e2⟩ := hs
    obtain ⟨f1, f2⟩ := copyStep_vars _ _ _ e1
    obtain ⟨f3, f4⟩ := put_vars e2
    exact ⟨i, j, by rw [f3, f1]; exact h1, f4 _ (f2 _ h2), by rw [f3, f1]; exact h3, f4 _ (f2 _ h4)⟩
  | 4, hc => cases hc; cases hs; exact h
  | 5, hc => cases hc; cases hs
  | 6, hc => cases hc; cases hs
  | n + 7, hc => cases hc

theorem demoSClient_inv {eq lt : Nat → Nat → Bool} {tr : STrace Nat} {A : SState Nat} (h : demoSClient.Reaches 0 eq lt tr A) :
    demoSInv (sCompleted tr) A := by
  induction h with
  | start => rfl
  | done _ hc hs ih => rw [sCompleted_snoc]; exact demoSInv_done ih hc hs
  | threw _ hc hs ih => rw [sCompleted_snoc]; exact demoSInv_threw ih hc hs

/-- The client respects all preconditions whatever exceptions are thrown. -/
theorem demoSClient_legal (eq lt : Nat → Nat → Bool) : demoSClient.Legal 0 eq lt :=
  fun _ _ _ hr hc => demoSInv_legal (demoSClient_inv hr) hc

/-- A run in which the construction throws in an element's constructor, the assignment while assigning the third element, and `resize` in `allocate`. -/
example : (demoSClient.run true 0 (fun a b => a == b) (fun a b => decide (a < b)) 20 []
      (SWorld.startX ([none, none, some 0] ++ List.replicate 7 none ++ [none, none, some 9] ++ List.replicate 6 none ++ [some 7]))).map
        (fun r => r.1.map (fun p => p.2)) =
    some [some (.basic .unit), some (.basic .unit), none, some (.basic .unit), none, some (.basic .unit), none, some (.basic .unit),
      some (.values [1, 2, 4, 5, 0, 0]), some (.basic .unit)] := by
  decide +kernel

/-- The interrupted assignment of the run above: elements 1, 2 copied, the third has some value, the others are untouched. -/
example : ∃ A' : SState Nat, (⟨fun i => if i = 0 then some [1, 2, 3, 4, 5, 6] else if i = 1 then some [0, 0, 0, 0, 0, 0] else none, 2, fun _ => none⟩ : SState Nat).CopyStopped
    (demoArr 1).part (demoArr 0).part A' ∧ A'.stores 1 = some [1, 2, 9, 0, 0, 0] ∧ A'.stores 0 = some [1, 2, 3, 4, 5, 6] :=
  ⟨_, ⟨[[0, 0], [0, 1]], [0, 2], [[1, 0], [1, 1], [1, 2]], _, 9, by decide, rfl, rfl⟩, by decide, by decide⟩

end MultiArray.Props
