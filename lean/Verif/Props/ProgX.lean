import Verif.Lemmas.ProgThrow
import Verif.Lemmas.Fair
import Verif.Props.Prog

/-
Property theorem C71: whole client programs in which allocation, element construction and element assignment may throw at any
point, any number of times, and the client catches the exceptions and goes on (it may look at everything that happened so far).
-/
set_option autoImplicit false

namespace MultiArray.Props
open MultiArray Spec
variable {T : Type}

theorem thrownAllocs_snoc (tr : Trace T) (c : Cmd T) (o : Option (CObs T)) :
    thrownAllocs (tr ++ [(c, o)]) = thrownAllocs tr + (if c.allocates && o.isNone then 1 else 0) := by
  unfold thrownAllocs
  rw [List.filter_append, List.length_append]
  by_cases h : (c.allocates && o.isNone) = true
  · simp [h]
  · simp [h]

theorem throws_snoc (tr : Trace T) (c : Cmd T) (o : Option (CObs T)) : throws (tr ++ [(c, o)]) = throws tr + (if o.isNone then 1 else 0) := by
  unfold throws
  rw [List.filter_append, List.length_append]
  cases o <;> simp

theorem client_run (dbg : Bool) (dflt : T) (eq lt : T → T → Bool) (k : Client T) (hk : k.Legal dflt eq lt) (n : Nat) {tr : Trace T}
    {L : List Nat} {w : World T} {A : AState T} (hr : k.Reaches dflt eq lt tr A) (h : InvX L w A) (hL : L.length ≤ thrownAllocs tr) {m : Nat} (hm : throws tr + due w.st ≤ m) :
    ∃ tr' L' w' A', throws tr' + due w'.st ≤ m ∧ k.run dbg dflt eq lt n tr w = some (tr', w') ∧ k.Reaches dflt eq lt tr' A' ∧ InvX L' w' A' ∧
      L'.length ≤ thrownAllocs tr' ∧ (tr'.length = tr.length + n ∨ k tr' = none) := by
  induction n generalizing tr L w A with
  | zero => exact ⟨tr, L, w, A, hm, rfl, hr, h, hL, .inl rfl⟩
  | succ n ih =>
    cases hc : k tr with
    | none => exact ⟨tr, L, w, A, hm, by simp only [Client.run, hc], hr, h, hL, .inr hc⟩
    | some c =>
      rcases cmd_x dbg dflt eq lt h c (hk tr A c hr hc) with ⟨o, A1, w1, e1, e2, e3⟩ | ⟨w1, L1, A1, e1, e2, e3, e4⟩
      · obtain ⟨tr', L', w', A', f0, f1, f2, f3, f4, f5⟩ := ih (hr.done hc e1) e3 (by rw [thrownAllocs_snoc]; omega)
          (by have := fair_done dbg dflt eq lt e2; rw [throws_snoc]; simp; omega)
        refine ⟨tr', L', w', A', f0, by simp only [Client.run, hc, e2]; exact f1, f2, f3, f4, ?_⟩
        rw [List.length_append] at f5
        rcases f5 with f5 | f5
        · exact .inl (by rw [f5]; simp; omega)
        · exact .inr f5
      · obtain ⟨tr', L', w', A', f0, f1, f2, f3, f4, f5⟩ := ih (hr.threw hc e2) e3
          (by rw [thrownAllocs_snoc]; cases hca : c.allocates <;> simp [hca] at e4 ⊢ <;> omega)
          (by have := fair_threw dbg dflt eq lt e1; rw [throws_snoc]; simp; omega)
        refine ⟨tr', L', w', A', f0, by simp only [Client.run, hc, e1]; exact f1, f2, f3, f4, ?_⟩
        rw [List.length_append] at f5
        rcases f5 with f5 | f5
        · exact .inl (by rw [f5]; simp; omega)
        · exact .inr f5

/-- A whole client program, for any number `n` of commands and any exceptions `sched` thrown by the allocator and by element
constructors and assignments.  If the client respects the preconditions whatever happens, the library runs into no undefined
behaviour and no failed assertion in either build mode; everything it returned and threw is a possible run of the abstract
machine; at the end every live variable holds the array the abstract machine says, in storage it shares with no other variable;
no command throws unless an exception was due; and at most one block of storage per construction or resize that threw is lost: all other storage belongs to a live variable. -/
theorem C71_client_under_exceptions (dbg : Bool) (dflt : T) (eq lt : T → T → Bool) (k : Client T) (hk : k.Legal dflt eq lt)
    (sched : List (Option T)) (n : Nat) :
    ∃ tr w A, k.run dbg dflt eq lt n [] (World.start sched) = some (tr, w) ∧ k.Reaches dflt eq lt tr A ∧
      (tr.length = n ∨ k tr = none) ∧ throws tr ≤ (sched.filter Option.isSome).length ∧
      (∀ x, w.objs x = none ↔ A x = none) ∧
      (∀ x a abs, w.objs x = some a → A x = some abs → Holds w.st a abs) ∧
      (∀ x y a b, w.objs x = some a → w.objs y = some b → x ≠ y → a.ref.data.blk ≠ b.ref.data.blk) ∧
      ∃ L : List Nat, L.length ≤ thrownAllocs tr ∧
        ∀ b, w.st.heap b ≠ none → b ∈ L ∨ ∃ x a, w.objs x = some a ∧ a.ref.data.blk = b := by
  have h0 : InvX [] (World.start sched : World T) (fun _ => none) :=
    ⟨(World.start [] : World T).st, ⟨rfl, rfl, fun _ h => (nomatch h), fun _ _ => rfl⟩, start_rep⟩
  obtain ⟨tr, L, w, A, e0, e1, e2, ⟨t, hc, hr⟩, e4, e5⟩ :=
    client_run dbg dflt eq lt k hk n Client.Reaches.start h0 (Nat.le_refl 0) (m := (sched.filter Option.isSome).length)
      (by show 0 + _ ≤ _; rw [Nat.zero_add]; exact Nat.le_refl _)
  refine ⟨tr, w, A, e1, e2, ?_, by omega, ?_, ?_, ?_, L, e4, ?_⟩
  · simpa using e5
  · intro x
    refine ⟨hr.dead x, fun hA => ?_⟩
    cases hx : w.objs x with
    | none => rfl
    | some a =>
      obtain ⟨abs, h1, _⟩ := hr.live x a hx
      rw [hA] at h1; cases h1
  · intro x a abs hx hA
    obtain ⟨abs', h1, h2⟩ := hr.live x a hx
    rw [hA] at h1; cases h1
    exact ⟨hc.owns h2.owns, h2.bases, h2.extents, h2.order⟩
  · intro x y a b hx hy hne
    exact fun he => hne (hr.valid.distinct x y a b hx hy he)
  · intro b hb
    by_cases hbL : b ∈ L
    · exact .inl hbL
    · right
      exact hr.noLeak b (by show t.heap b ≠ none; rw [hc.same b hbL]; exact hb)

/-! ### A client that meets the hypotheses -/

/-- The demonstration client: the commands in order, each one retried until it does not throw.
`multi_array<int,2> a(extents[2][3]); a.assign(1..6); multi_array<int,2> b(a); b.resize(extents[3][2]); traverse b; destroy both`. -/
def demoCmds : List (Cmd Nat) :=
  [.construct 0 (.extents 2 [2, 3] (StorageOrder.cOrder 2) 0),
   .on 0 (.assign [1, 2, 3, 4, 5, 6]),
   .construct 1 (.copy 0),
   .on 1 (.resizeList [3, 2]),
   .traverse 1 [],
   .destroy 1,
   .destroy 0]

/-- How many commands have completed. -/
def completed (tr : Trace T) : Nat := (tr.filter (fun p => p.2.isSome)).length

theorem completed_snoc (tr : Trace T) (c : Cmd T) (o : Option (CObs T)) :
    completed (tr ++ [(c, o)]) = completed tr + (if o.isSome then 1 else 0) := by
  unfold completed
  rw [List.filter_append, List.length_append]
  cases o <;> simp

def demoClient : Client Nat := fun tr => demoCmds[completed tr]?

/-- The state of the variables when `n` commands have completed. -/
def demoInv (n : Nat) (A : AState Nat) : Prop :=
  match n with
  | 0 => A = noVars
  | 1 | 2 => ∃ vs, A 0 = some ⟨[0, 0], [2, 3], StorageOrder.cOrder 2, vs⟩ ∧ A 1 = none
  | 3 => ∃ a vs, A 0 = some a ∧ A 1 = some ⟨[0, 0], [2, 3], StorageOrder.cOrder 2, vs⟩
  | 4 | 5 => ∃ a b, A 0 = some a ∧ A 1 = some b
  | 6 => ∃ a, A 0 = some a
  | _ => True

theorem demoInv_legal {n : Nat} {A : AState Nat} (h : demoInv n A) {c : Cmd Nat} (hc : demoCmds[n]? = some c) : c.Legal A := by
  match n, hc with
  | 0, hc => cases hc; cases h; exact ⟨rfl, cOrder_valid 2, rfl⟩
  | 1, hc => cases hc; obtain ⟨vs, h1, _⟩ := h; exact ⟨_, h1, trivial⟩
  | 2, hc => cases hc; obtain ⟨vs, h1, h2⟩ := h; exact ⟨h2, _, h1⟩
  | 3, hc => cases hc; obtain ⟨a, vs, _, h2⟩ := h; exact ⟨_, h2, rfl, by decide, (by decide : Representable [0, 0] [2, 3])⟩
  | 4, hc => cases hc; obtain ⟨a, b, _, h2⟩ := h; exact ⟨_, _, h2, trivial, rfl⟩
  | 5, hc => cases hc; obtain ⟨a, b, _, h2⟩ := h; exact ⟨_, h2⟩
  | 6, hc => cases hc; obtain ⟨a, h1⟩ := h; exact ⟨_, h1⟩
  | n + 7, hc => cases hc

theorem demoInv_done {n : Nat} {A A' : AState Nat} {eq lt : Nat → Nat → Bool} (h : demoInv n A) {c : Cmd Nat} {o : CObs Nat}
    (hc : demoCmds[n]? = some c) (hs : A.step 0 eq lt c = some (o, A')) : demoInv (n + 1) A' := by
  match n, hc with
  | 0, hc => cases hc; cases h; cases hs; exact ⟨_, rfl, rfl⟩
  | 1, hc =>
    cases hc; obtain ⟨vs, h1, h2⟩ := h
    simp only [AState.step, h1, Option.bind_some, AbsArr.step, Option.map_some, Option.some.injEq, Prod.mk.injEq] at hs
    obtain ⟨_, rfl⟩ := hs
    exact ⟨_, rfl, h2⟩
  | 2, hc =>
    cases hc; obtain ⟨vs, h1, h2⟩ := h
    simp only [AState.step, CInit.value, h1, Option.map_some, Option.some.injEq, Prod.mk.injEq] at hs
    obtain ⟨_, rfl⟩ := hs
    exact ⟨_, vs, h1, rfl⟩
  | 3, hc =>
    cases hc; obtain ⟨a, vs, h1, h2⟩ := h
    simp only [AState.step, h2, Option.bind_some, Option.map_eq_some_iff, Prod.mk.injEq] at hs
    obtain ⟨r, _, _, rfl⟩ := hs
    exact ⟨a, r.2, h1, rfl⟩
  | 4, hc =>
    cases hc; obtain ⟨a, b, h1, h2⟩ := h
    simp only [AState.step, Option.bind_eq_some_iff, Option.map_eq_some_iff, Prod.mk.injEq] at hs
    obtain ⟨p, _, vs, _, _, rfl⟩ := hs
    exact ⟨a, b, h1, h2⟩
  | 5, hc => cases hc; obtain ⟨a, b, h1, h2⟩ := h; cases hs; exact ⟨a, h1⟩
  | 6, hc => trivial
  | n + 7, hc => cases hc

theorem demoInv_threw {n : Nat} {A A' : AState Nat} (h : demoInv n A) {c : Cmd Nat} (hc : demoCmds[n]? = some c) (hs : A.Interrupted c A') :
    demoInv n A' := by
  match n, hc with
  | 0, hc => cases hc; cases hs; exact h
  | 1, hc =>
    cases hc; obtain ⟨vs, h1, h2⟩ := h
    obtain ⟨a, k, junk, e1, _, _, rfl⟩ := hs
    rw [h1] at e1
    cases e1
    exact ⟨_, rfl, h2⟩
  | 2, hc => cases hc; cases hs; exact h
  | 3, hc => cases hc; cases hs; exact h
  | 4, hc => cases hc; cases hs
  | 5, hc => cases hc; cases hs
  | 6, hc => cases hc; cases hs
  | n + 7, hc => cases hc

theorem demoClient_inv {eq lt : Nat → Nat → Bool} {tr : Trace Nat} {A : AState Nat} (h : demoClient.Reaches 0 eq lt tr A) :
    demoInv (completed tr) A := by
  induction h with
  | start => rfl
  | done _ hc hs ih => rw [completed_snoc]; exact demoInv_done ih hc hs
  | threw _ hc hs ih => rw [completed_snoc]; exact demoInv_threw ih hc hs

/-- The client respects all preconditions whatever exceptions are thrown. -/
theorem demoClient_legal (eq lt : Nat → Nat → Bool) : demoClient.Legal 0 eq lt :=
  fun _ _ _ hr hc => demoInv_legal (demoClient_inv hr) hc

/-- A run in which the first construction throws in an element's constructor, the copy construction in `allocate`, and `resize` while
copying the elements: every command is retried and the program computes what it should. -/
example : (demoClient.run true 0 (fun a b => a == b) (fun a b => decide (a < b)) 20 []
      (World.start ([none, none, some 0] ++ List.replicate 13 none ++ [some 0] ++ List.replicate 21 none ++ [some 7]))).map
        (fun r => r.1.map (fun p => p.2)) =
    some [none, some (.basic .unit), some (.basic .unit), none, some (.basic .unit), none, some (.basic .unit), some (.values [1, 2, 4, 5, 0, 0]),
      some (.basic .unit), some (.basic .unit)] := by
  decide +kernel

end MultiArray.Props
