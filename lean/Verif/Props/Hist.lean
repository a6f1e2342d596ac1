import Verif.Lemmas.Hist

/-
Property theorem C47: element lifetimes over arbitrary histories.  A program (SpecHist.lean) has any number of `multi_array`
variables; its operations are construction (default, extents, generator, copy, conversion from any view), destruction,
assignment of arrays and of parts, copy_array, assign, element reads and writes, for_each, resize, reindex, reshape.

The memory model makes every lifetime error an outcome `ub`: reading, assigning or destroying storage that holds no live
object; constructing over a live object; deallocating storage that is not an allocated block, with the wrong
count, or that still holds live objects.  So "the program does not fail" says that each element is constructed before use and
destroyed exactly once, and each block is deallocated at most once, with its count.
-/
set_option autoImplicit false

namespace MultiArray.Props
open MultiArray MultiArray.Spec
variable {T : Type}

theorem run_valid (dbg : Bool) (dflt : T) (prog : List (Op T)) {w : World T} (hw : w.Valid) (hleg : w.LegalRun dbg dflt prog) :
    ∃ w', w.run dbg dflt prog = some w' ∧ w'.Valid ∧ (w.st.sched = [] → w.NoLeak → w'.NoLeak ∧ w'.st.sched = []) ∧
      (w.NoAllocThrow dbg dflt prog → w.NoLeak → w'.NoLeak) := by
  induction prog generalizing w with
  | nil => exact ⟨w, rfl, hw, fun h1 h2 => ⟨h2, h1⟩, fun _ h => h⟩
  | cons op ops ih =>
    obtain ⟨w1, h1, h2, h3⟩ := step_ok dbg dflt hw hleg.1
    rcases h1 with ⟨h1, h4⟩ | ⟨h1, hne, h4⟩
    · obtain ⟨w', e1, e2, e3, e4⟩ := ih h2 (hleg.2 w1 (.inl h1))
      exact ⟨w', by simp only [World.run, h1, e1], e2, fun hs hl => e3 (h3 hs) (h4 hl),
        fun hna hl => e4 (hna.2 w1 (.inl h1)) (h4 hl)⟩
    · obtain ⟨w', e1, e2, e3, e4⟩ := ih h2 (hleg.2 w1 (.inr h1))
      refine ⟨w', by simp only [World.run, h1, e1], e2, fun hs _ => absurd hs hne, fun hna hl => e4 (hna.2 w1 (.inr h1)) (h4 ?_ hl)⟩
      cases hop : op.allocates with
      | false => rfl
      | true => exact absurd h1 (hna.1 hop w1)

theorem start_valid (sched : List (Option T)) : (World.start sched).Valid :=
  ⟨⟨by show (0 : Nat) < 1; omega, fun _ _ => rfl⟩, fun _ _ h => (by cases h), fun _ _ _ _ h => (by cases h)⟩

theorem start_noLeak (sched : List (Option T)) : (World.start sched).NoLeak := fun _ h => absurd rfl h

/-- **C47.** Any program of legal operations, without exceptions, runs without lifetime errors (and without failing an
assertion); at every point (every prefix of a program is a program) each live variable owns one block of exactly
`num_elements()` live elements, no block is shared, and no other block is allocated; so when all variables have been
destroyed no storage remains. -/
theorem C47_lifetimes_balanced (dbg : Bool) (dflt : T) (prog : List (Op T)) (hleg : (World.start []).LegalRun dbg dflt prog) :
    ∃ w, (World.start []).run dbg dflt prog = some w ∧
      (∀ x a, w.objs x = some a → ∃ n, Owns w.st n a) ∧
      (∀ x y a a', w.objs x = some a → w.objs y = some a' → a.ref.data.blk = a'.ref.data.blk → x = y) ∧
      (∀ b, w.st.heap b ≠ none ↔ ∃ x a, w.objs x = some a ∧ a.ref.data.blk = b) ∧
      ((∀ x, w.objs x = none) → ∀ b, w.st.heap b = none) := by
  obtain ⟨w, h1, h2, h3, _⟩ := run_valid dbg dflt prog (start_valid []) hleg
  obtain ⟨h4, _⟩ := h3 rfl (start_noLeak [])
  refine ⟨w, h1, h2.owns, h2.distinct, fun b => ⟨h4 b, ?_⟩, ?_⟩
  · rintro ⟨x, a, hx, rfl⟩
    obtain ⟨n, vs, ho⟩ := h2.owns x a hx
    rw [ho.block]; simp
  · intro hall b
    by_contra hb
    obtain ⟨x, a, hx, _⟩ := h4 b hb
    rw [hall x] at hx; cases hx

/-- **C47**, with exceptions: whatever allocation, element construction or assignment throws, at whatever points, a program
that catches the exceptions and goes on never runs into a lifetime error: every live variable still owns its own block of
`num_elements()` live elements.  Storage without an owner can only come from constructions and resizes that threw (C50). -/
theorem C47_lifetimes_under_exceptions (dbg : Bool) (dflt : T) (sched : List (Option T)) (prog : List (Op T))
    (hleg : (World.start sched).LegalRun dbg dflt prog) :
    ∃ w, (World.start sched).run dbg dflt prog = some w ∧
      (∀ x a, w.objs x = some a → ∃ n, Owns w.st n a) ∧
      (∀ x y a a', w.objs x = some a → w.objs y = some a' → a.ref.data.blk = a'.ref.data.blk → x = y) ∧
      ((World.start sched).NoAllocThrow dbg dflt prog → ∀ b, w.st.heap b ≠ none → ∃ x a, w.objs x = some a ∧ a.ref.data.blk = b) := by
  obtain ⟨w, h1, h2, _, h4⟩ := run_valid dbg dflt prog (start_valid sched) hleg
  exact ⟨w, h1, h2.owns, h2.distinct, fun h => h4 h (start_noLeak sched)⟩

/-- A program exercising construction, element writes, copy, reindexing and destruction. -/
def exProg : List (Op Nat) :=
  [.construct 0 (.gen 1 [⟨3, 5⟩] (StorageOrder.cOrder 1) 0), .fill 0 [10], .construct 1 (.copy 0), .reindexAll 0 7,
   .destroy 0, .destroy 1]

/-- It is legal at every step (checked by running it). -/
theorem exProg_legal : (World.start []).LegalRun true 0 exProg := by
  refine ⟨⟨rfl, by decide, rfl⟩, fun w hw => ?_⟩
  rcases hw with hw | hw <;> cases hw
  refine ⟨⟨_, rfl⟩, fun w hw => ?_⟩
  rcases hw with hw | hw <;> cases hw
  refine ⟨⟨rfl, _, rfl⟩, fun w hw => ?_⟩
  rcases hw with hw | hw <;> cases hw
  refine ⟨⟨_, rfl⟩, fun w hw => ?_⟩
  rcases hw with hw | hw <;> cases hw
  refine ⟨⟨_, rfl⟩, fun w hw => ?_⟩
  rcases hw with hw | hw <;> cases hw
  refine ⟨⟨_, rfl⟩, fun w hw => ?_⟩
  trivial

example : ∃ w, (World.start []).run true 0 exProg = some w ∧ ∀ b, w.st.heap b = none := by
  obtain ⟨w, h1, _, _, _, h5⟩ := C47_lifetimes_balanced true 0 exProg exProg_legal
  refine ⟨w, h1, h5 ?_⟩
  have : (World.start []).run true 0 exProg = some _ := rfl
  rw [this] at h1
  cases h1
  intro x
  by_cases h1 : x = 1
  · simp [World.set, h1]
  · by_cases h0 : x = 0 <;> simp [World.set, h1, h0, World.start]

/-- A resize is legal in the world that consists of the one array `smallM`. -/
example : Op.Legal ⟨fun x => if x = 0 then some smallM else none, smallSt []⟩ (.resize 0 [⟨-4, 1⟩]) :=
  ⟨smallM, rfl, rfl, by decide, by decide⟩

end MultiArray.Props
