import Verif.Lemmas.Share

/- Changing a variable or the set of storages. -/
set_option autoImplicit false

namespace MultiArray
open Spec Props
variable {T : Type} {g g' : Ghost}

/-! ### Inversion -/

theorem RepG.unset {w : SWorld T} {A : SState T} (h : RepG g w A) {x : Nat} (hx : A.vars x = none) : w.vars x = none := by
  have hv := h.var x
  rw [hx] at hv
  match hw : w.vars x with
  | .none => rfl
  | some c => rw [hw] at hv; cases c <;> exact hv.elim

theorem RepG.owner {w : SWorld T} {A : SState T} (h : RepG g w A) {x : Nat} {hh : SArr} (hx : A.vars x = some (.owner hh)) :
    ∃ a, w.vars x = some (.owner a) ∧ HdrRep g A.stores A.count a.ref hh ∧ hh.first = 0 ∧ a.ownBase = a.ref.data ∧ a.allocated = a.ref.numElements ∧
      g.prov hh.store = a.alloc ∧ ∃ vs, A.stores hh.store = some vs ∧ vs.length = hh.extents.prod := by
  have hv := h.var x
  rw [hx] at hv
  match hw : w.vars x with
  | .none => rw [hw] at hv; exact hv.elim
  | some (.owner a) => rw [hw] at hv; exact ⟨a, rfl, hv⟩
  | some (.ref _) | some (.view _) | some (.sub _) | some (.buffer _ _) => rw [hw] at hv; exact hv.elim

theorem RepG.ref {w : SWorld T} {A : SState T} (h : RepG g w A) {x : Nat} {hh : SArr} (hx : A.vars x = some (.ref hh)) :
    ∃ a, w.vars x = some (.ref a) ∧ HdrRep g A.stores A.count a hh := by
  have hv := h.var x
  rw [hx] at hv
  match hw : w.vars x with
  | .none => rw [hw] at hv; exact hv.elim
  | some (.ref a) => rw [hw] at hv; exact ⟨a, rfl, hv⟩
  | some (.owner _) | some (.view _) | some (.sub _) | some (.buffer _ _) => rw [hw] at hv; exact hv.elim

theorem RepG.view {w : SWorld T} {A : SState T} (h : RepG g w A) {x : Nat} {p : SPart} (hx : A.vars x = some (.view p)) :
    ∃ v, w.vars x = some (.view v) ∧ v.WF ∧ PlaceRep g A.stores A.count v.desc p := by
  have hv := h.var x
  rw [hx] at hv
  match hw : w.vars x with
  | .none => rw [hw] at hv; exact hv.elim
  | some (.view a) => rw [hw] at hv; exact ⟨a, rfl, hv⟩
  | some (.owner _) | some (.ref _) | some (.sub _) | some (.buffer _ _) => rw [hw] at hv; exact hv.elim

theorem RepG.sub {w : SWorld T} {A : SState T} (h : RepG g w A) {x o : Nat} {p : SPart} (hx : A.vars x = some (.sub o p)) :
    ∃ s, w.vars x = some (.sub s) ∧ s.owner = o ∧ ∃ d, s.desc w.scope = .ok d ∧ PlaceRep g A.stores A.count d p := by
  have hv := h.var x
  rw [hx] at hv
  match hw : w.vars x with
  | .none => rw [hw] at hv; exact hv.elim
  | some (.sub a) => rw [hw] at hv; exact ⟨a, rfl, hv⟩
  | some (.owner _) | some (.ref _) | some (.view _) | some (.buffer _ _) => rw [hw] at hv; exact hv.elim

theorem RepG.stale {w : SWorld T} {A : SState T} (h : RepG g w A) {x : Nat} (hx : A.vars x = some .stale) :
    ∃ s, w.vars x = some (.sub s) := by
  have hv := h.var x
  rw [hx] at hv
  match hw : w.vars x with
  | .none => rw [hw] at hv; exact hv.elim
  | some (.sub a) => exact ⟨a, rfl⟩
  | some (.owner _) | some (.ref _) | some (.view _) | some (.buffer _ _) => rw [hw] at hv; exact hv.elim

theorem RepG.buffer {w : SWorld T} {A : SState T} (h : RepG g w A) {x i : Nat} (hx : A.vars x = some (.buffer i)) :
    ∃ q n, w.vars x = some (.buffer q n) ∧ i < A.count ∧ q = ⟨g.blk i, 0⟩ ∧ ∃ vs, A.stores i = some vs ∧ vs.length = n := by
  have hv := h.var x
  rw [hx] at hv
  match hw : w.vars x with
  | .none => rw [hw] at hv; exact hv.elim
  | some (.buffer q n) => rw [hw] at hv; exact ⟨q, n, rfl, hv⟩
  | some (.owner _) | some (.ref _) | some (.view _) | some (.sub _) => rw [hw] at hv; exact hv.elim

theorem RepG.ownsLive {w : SWorld T} {A : SState T} (h : RepG g w A) {x i : Nat} (ho : OwnsStore (A.vars x) i) : i < A.count ∧ A.stores i ≠ .none := by
  match hA : A.vars x with
  | some (.owner hh) =>
    rw [hA] at ho; cases ho
    obtain ⟨_, _, h1, _, _, _, _, vs, e, _⟩ := h.owner hA
    exact ⟨h1.lt, by rw [e]; simp⟩
  | some (.buffer j) =>
    rw [hA] at ho; cases ho
    obtain ⟨_, _, _, h1, _, vs, e, _⟩ := h.buffer hA
    exact ⟨h1, by rw [e]; simp⟩
  | .none | some (.ref _) | some (.view _) | some (.sub _ _) | some .stale => rw [hA] at ho; exact ho.elim

/-! ### Changing a variable -/

theorem ownsStore_invalidate (x : Nat) (v : Option SVar) (i : Nat) : OwnsStore (SState.invalidate x v) i ↔ OwnsStore v i := by
  match v with
  | some (.sub o p) =>
    by_cases ho : o = x <;> simp [SState.invalidate, ho, OwnsStore]
  | .none | some (.owner _) | some (.ref _) | some (.view _) | some .stale | some (.buffer _) => rfl

theorem scope_setVar_ne (w : SWorld T) {x y : Nat} (hy : y ≠ x) (cv : Option CVar) (s' : St T) : (w.setVar x cv s').scope y = w.scope y := by
  simp [SWorld.scope, SWorld.setVar, hy]

theorem RepG.setVar {w : SWorld T} {A : SState T} (h : RepG g w A) (x : Nat) (cv : Option CVar) (v : Option SVar) {s' : St T} {stores' : Nat → Option (List T)}
    {count' : Nat} (hm : MemRep g' s' stores' count') (hG : Grow g g' A.stores stores' A.count count')
    (hx : VarRep g' (w.setVar x cv s').scope stores' count' cv v)
    (hlive : ∀ y i, y ≠ x → OwnsStore (A.vars y) i → stores' i ≠ .none) (huniq : ∀ y i, y ≠ x → OwnsStore v i → ¬ OwnsStore (A.vars y) i)
    (howned : ∀ i, stores' i ≠ .none → OwnsStore v i ∨ ∃ y, y ≠ x ∧ OwnsStore (A.vars y) i) :
    RepG g' (w.setVar x cv s') ⟨stores', count', (A.setVar x v).vars⟩ := by
  have hvx : (A.setVar x v).vars x = v := by simp [SState.setVar]
  have hvy : ∀ y, y ≠ x → (A.setVar x v).vars y = SState.invalidate x (A.vars y) := fun y hy => by simp [SState.setVar, hy]
  refine ⟨hm, fun y => ?_, ?_, ?_⟩
  · by_cases hy : y = x
    · subst hy
      simp only [hvx]
      rw [show (w.setVar y cv s').vars y = cv by simp [SWorld.setVar]]
      exact hx
    · simp only [hvy y hy]
      rw [show (w.setVar x cv s').vars y = w.vars y by simp [SWorld.setVar, hy]]
      by_cases hsub : ∃ p, A.vars y = some (.sub x p)
      · obtain ⟨p, hp⟩ := hsub
        obtain ⟨s, e, _⟩ := h.sub hp
        rw [hp, e]
        simp only [SState.invalidate, if_true]
        trivial
      · have hinv : SState.invalidate x (A.vars y) = A.vars y := by
          match hA : A.vars y with
          | some (.sub o p) =>
            have : o ≠ x := fun e => hsub ⟨p, by rw [hA, e]⟩
            simp [SState.invalidate, this]
          | .none | some (.owner _) | some (.ref _) | some (.view _) | some .stale | some (.buffer _) => rfl
        rw [hinv]
        refine (h.var y).grow hG (fun i hi => hlive y i hy hi) (fun o p hop => ?_)
        exact scope_setVar_ne w (fun e => hsub ⟨p, by rw [hop, e]⟩) _ _
  · intro y z i hy hz
    simp only at hy hz
    by_cases hyx : y = x
    · by_cases hzx : z = x
      · rw [hyx, hzx]
      · rw [hyx, hvx] at hy
        rw [hvy z hzx, ownsStore_invalidate] at hz
        exact absurd hz (huniq z i hzx hy)
    · rw [hvy y hyx, ownsStore_invalidate] at hy
      by_cases hzx : z = x
      · rw [hzx, hvx] at hz
        exact absurd hy (huniq y i hyx hz)
      · rw [hvy z hzx, ownsStore_invalidate] at hz
        exact h.uniq y z i hy hz
  · intro i hi
    rcases howned i hi with ho | ⟨y, hy, ho⟩
    · exact ⟨x, by simp only [hvx]; exact ho⟩
    · exact ⟨y, by simp only [hvy y hy, ownsStore_invalidate]; exact ho⟩

/-- A variable that owns nothing gets a value that owns nothing. -/
theorem RepG.setPlain {w : SWorld T} {A : SState T} (h : RepG g w A) (x : Nat) (cv : Option CVar) (v : Option SVar)
    (hx : VarRep g (w.setVar x cv w.st).scope A.stores A.count cv v) (h1 : ∀ i, ¬ OwnsStore (A.vars x) i) (h2 : ∀ i, ¬ OwnsStore v i) :
    RepG g (w.setVar x cv w.st) (A.setVar x v) := by
  refine h.setVar x cv v h.mem (.refl _ _ _) hx (fun y i _ ho => (h.ownsLive ho).2) (fun y i _ ho => absurd ho (h2 i)) (fun i hi => .inr ?_)
  obtain ⟨y, hy⟩ := h.owned i hi
  exact ⟨y, fun e => h1 i (by rw [← e]; exact hy), hy⟩

/-- A variable keeps the storage it owns. -/
theorem RepG.setSame {w : SWorld T} {A : SState T} (h : RepG g w A) (x : Nat) (cv : Option CVar) (v : Option SVar)
    (hx : VarRep g (w.setVar x cv w.st).scope A.stores A.count cv v) (h1 : ∀ i, OwnsStore v i ↔ OwnsStore (A.vars x) i) :
    RepG g (w.setVar x cv w.st) (A.setVar x v) := by
  refine h.setVar x cv v h.mem (.refl _ _ _) hx (fun y i _ ho => (h.ownsLive ho).2)
    (fun y i hy ho ho' => hy (h.uniq y x i ho' ((h1 i).mp ho))) (fun i hi => ?_)
  obtain ⟨y, hy⟩ := h.owned i hi
  by_cases hyx : y = x
  · exact .inl ((h1 i).mpr (by rw [← hyx]; exact hy))
  · exact .inr ⟨y, hyx, hy⟩

/-! ### New and released storage -/

/-- A new storage. -/
def Ghost.push (g : Ghost) (i b al : Nat) : Ghost := ⟨fun j => if j = i then b else g.blk j, fun j => if j = i then al else g.prov j⟩

theorem MemRep.new {s s' : St T} {stores stores0 : Nat → Option (List T)} {count al : Nat} {vs : List T} (h : MemRep g s stores count)
    (hn : s.next < s'.next) (hsane : SaneHeap s') (hs : s'.sched = []) (hb : s'.heap s.next = some ⟨al, vs.map .obj⟩)
    (hval : ∀ i, i < count → s'.heap (g.blk i) = (stores0 i).map (fun vs => ⟨g.prov i, vs.map .obj⟩)) (hfr : ∀ i, count ≤ i → stores0 i = none)
    (hleak : ∀ b, b ≠ s.next → s'.heap b ≠ none → s.heap b ≠ none) :
    MemRep (g.push count s.next al) s' (fun j => if j = count then some vs else stores0 j) (count + 1) := by
  have hne : ∀ i, i < count → ¬ i = count := fun i hi => by omega
  refine ⟨hsane, hs, ?_, ?_, ?_, ?_, ?_⟩
  · intro i hi
    by_cases hic : i = count
    · subst hic
      simp only [Ghost.push, if_true]
      exact ⟨h.sane.1, hn⟩
    · have := h.pos i (by omega)
      simp only [Ghost.push, hic, if_false]
      omega
  · intro i j hi hj he
    simp only [Ghost.push] at he
    by_cases hic : i = count <;> by_cases hjc : j = count <;> simp only [hic, hjc, if_true, if_false] at he ⊢
    · have := h.pos j (by omega); omega
    · have := h.pos i (by omega); omega
    · exact h.inj i j (by omega) (by omega) he
  · intro i hi
    by_cases hic : i = count
    · subst hic; simp only [Ghost.push, if_true, hb, Option.map_some]
    · simp only [Ghost.push, hic, if_false]
      exact hval i (by omega)
  · intro i hi
    have : ¬ i = count := by omega
    simp only [this, if_false]
    exact hfr i (by omega)
  · intro b hb'
    by_cases hbn : b = s.next
    · exact ⟨count, by omega, by simp [Ghost.push, hbn]⟩
    · obtain ⟨i, hi, hib⟩ := h.noLeak b (hleak b hbn hb')
      exact ⟨i, by omega, by simp [Ghost.push, hne i hi, hib]⟩

theorem grow_push {stores stores0 : Nat → Option (List T)} {count : Nat} (g : Ghost) (b al : Nat) (vs : List T)
    (hl : ∀ i, i < count → ∀ vs', stores0 i = some vs' → stores i = some vs') :
    Grow g (g.push count b al) stores (fun j => if j = count then some vs else stores0 j) count (count + 1) := by
  have hne : ∀ i, i < count → ¬ i = count := fun i hi => by omega
  refine ⟨by omega, fun i hi => by simp [Ghost.push, hne i hi], fun i hi => by simp [Ghost.push, hne i hi], fun i hi vs' hv => ?_⟩
  simp only [hne i hi, if_false] at hv
  exact ⟨vs', hl i hi vs' hv, rfl⟩

theorem MemRep.free {s s' : St T} {stores : Nat → Option (List T)} {count i : Nat} (h : MemRep g s stores count) (hi : i < count)
    (hb : s'.heap (g.blk i) = none) (ho : ∀ b, b ≠ g.blk i → s'.heap b = s.heap b) (hn : s'.next = s.next) (hs : s'.sched = []) :
    MemRep g s' (fun j => if j = i then none else stores j) count := by
  refine ⟨⟨by rw [hn]; exact h.sane.1, fun b hb' => ?_⟩, hs, by rw [hn]; exact h.pos, h.inj, ?_, ?_, ?_⟩
  · rw [hn] at hb'
    have := (h.pos i hi).2
    rw [ho b (by omega)]
    exact h.sane.2 b hb'
  · intro j hj
    by_cases hji : j = i
    · subst hji; simp [hb]
    · simp only [hji, if_false]
      rw [ho _ (fun e => hji (h.inj j i hj hi e))]
      exact h.val j hj
  · intro j hj
    by_cases hji : j = i
    · simp [hji]
    · simp only [hji, if_false]; exact h.fresh j hj
  · intro b hb'
    by_cases hbi : b = g.blk i
    · rw [hbi, hb] at hb'; exact absurd rfl hb'
    · rw [ho b hbi] at hb'
      exact h.noLeak b hb'

/-- A variable gets a new storage of its own. -/
theorem RepG.addNew {w : SWorld T} {A : SState T} (h : RepG g w A) {x al : Nat} (hx : A.vars x = none) {cv : Option CVar} {v : Option SVar} {s' : St T} {vs : List T}
    (hn : s'.next = w.st.next + 1) (hs : s'.sched = []) (hb : s'.heap w.st.next = some ⟨al, vs.map .obj⟩)
    (ho : ∀ b, b ≠ w.st.next → s'.heap b = w.st.heap b) (hown : ∀ i, OwnsStore v i ↔ i = A.count)
    (hv : VarRep (g.push A.count w.st.next al) (w.setVar x cv s').scope (A.addStore vs).stores (A.count + 1) cv v) :
    RepG (g.push A.count w.st.next al) (w.setVar x cv s') ((A.addStore vs).setVar x v) := by
  have hsane : SaneHeap s' := ⟨by rw [hn]; omega, fun b hb' => by rw [ho b (by omega)]; exact h.mem.sane.2 b (by omega)⟩
  have hm := h.mem.new (stores0 := A.stores) (by omega) hsane hs hb
    (fun i hi => by rw [ho _ (by have := h.mem.pos i hi; omega)]; exact h.mem.val i hi) h.mem.fresh (fun b hb1 hb2 => by rw [← ho b hb1]; exact hb2)
  refine h.setVar x cv v hm (grow_push g _ _ _ (fun _ _ _ hv => hv)) hv ?_ ?_ ?_
  · intro y i _ hi
    have := h.ownsLive hi
    have hne : ¬ i = A.count := by omega
    simp only [SState.addStore, hne, if_false]
    exact this.2
  · intro y i _ hi hi'
    have := (h.ownsLive hi').1
    rw [hown] at hi
    omega
  · intro i hi
    by_cases hic : i = A.count
    · exact .inl ((hown i).mpr hic)
    · simp only [SState.addStore, hic, if_false] at hi
      obtain ⟨y, hy⟩ := h.owned i hi
      refine .inr ⟨y, fun e => ?_, hy⟩
      rw [e, hx] at hy
      exact hy.elim

/-- The storage a variable owns is released with it. -/
theorem RepG.release {w : SWorld T} {A : SState T} (h : RepG g w A) {x i : Nat} (hx : OwnsStore (A.vars x) i) {s' : St T}
    (hn : s'.next = w.st.next) (hs : s'.sched = []) (hb : s'.heap (g.blk i) = .none) (ho : ∀ b, b ≠ g.blk i → s'.heap b = w.st.heap b) :
    RepG g (w.setVar x .none s') ((A.setStore i .none).setVar x .none) := by
  have hi := (h.ownsLive hx).1
  have hm := h.mem.free hi hb ho hn hs
  refine h.setVar x .none .none hm ⟨Nat.le_refl _, fun _ _ => rfl, fun _ _ => rfl, fun j _ vs hv => ?_⟩ trivial ?_ ?_ ?_
  · by_cases hji : j = i
    · simp [SState.setStore, hji] at hv
    · simp only [SState.setStore, hji, if_false] at hv
      exact ⟨vs, hv, rfl⟩
  · intro y j hy hj
    have hji : ¬ j = i := fun e => hy (h.uniq y x i (by rw [← e]; exact hj) hx)
    simp only [SState.setStore, hji, if_false]
    exact (h.ownsLive hj).2
  · intro y j _ hj; exact hj.elim
  · intro j hj
    by_cases hji : j = i
    · simp [SState.setStore, hji] at hj
    · simp only [SState.setStore, hji, if_false] at hj
      obtain ⟨y, hy⟩ := h.owned j hj
      refine .inr ⟨y, fun e => hji ?_, hy⟩
      rw [e] at hy
      match hA : A.vars x with
      | some (.owner hh) => rw [hA] at hy hx; exact hy.symm.trans hx
      | some (.buffer _) => rw [hA] at hy hx; exact hy.symm.trans hx
      | .none | some (.ref _) | some (.view _) | some (.sub _ _) | some .stale => rw [hA] at hx; exact hx.elim

/-! ### Owners -/

/-- A variable that owns its elements, as in the programs without shared storage. -/
theorem RepG.represents {w : SWorld T} {A : SState T} (h : RepG g w A) {x : Nat} {hh : SArr} (hx : A.vars x = some (.owner hh)) :
    ∃ a vs, w.vars x = some (.owner a) ∧ A.stores hh.store = some vs ∧ a.ref.data.blk = g.blk hh.store ∧ a.alloc = g.prov hh.store ∧
      Represents w.st a ⟨hh.bases, hh.extents, hh.order, vs⟩ := by
  obtain ⟨a, h1, h2, h3, h4, h5, h6, vs, h7, h8⟩ := h.owner hx
  refine ⟨a, vs, h1, h7, by rw [h2.data], h6.symm, ⟨⟨h2.reach, by rw [h2.data, h3]; rfl, ?_, h4, h5, ?_, ?_⟩, h2.bases, h2.extents, h2.order, h.mem.sane, h.mem.sched⟩⟩
  · rw [h2.data]
    have := (h.mem.pos _ h2.lt).1
    show g.blk hh.store ≠ 0
    omega
  · rw [h2.data, ← h6]
    exact (h.block h7).2
  · rw [h8, show a.ref.numElements = a.ref.numElems from rfl, h2.reach.wf.num_eq, product_eq, h2.extents]

theorem varRep_owner {sc : Scope} {stores : Nat → Option (List T)} {count i : Nat} (hi : i < count) {s' : St T} {m : MArr} {abs : AbsArr T}
    (hr : Represents s' m abs) (hblk : m.ref.data.blk = g.blk i) (hal : m.alloc = g.prov i) (hv : stores i = some abs.vals) :
    VarRep g sc stores count (some (.owner m)) (some (.owner ⟨i, 0, abs.bases, abs.extents, abs.order⟩)) := by
  have hlen : abs.vals.length = abs.extents.prod := by
    rw [hr.owns.len, show m.ref.numElements = m.ref.numElems from rfl, hr.owns.reach.wf.num_eq, product_eq, hr.extents]
  refine ⟨⟨hi, hr.owns.reach, ?_, hr.bases, hr.extents, hr.order, ?_⟩, rfl, hr.owns.own, hr.owns.count, hal.symm, abs.vals, hv, hlen⟩
  · rw [hr.owns.data_eq, hblk]; rfl
  · intro vs hvs
    simp only at hvs
    rw [hv] at hvs; cases hvs
    simp [hlen]

/-- A newly constructed array. -/
theorem RepG.addOwner {w : SWorld T} {A : SState T} (h : RepG g w A) {x : Nat} (hx : A.vars x = none) {m : MArr} {s' : St T} {abs : AbsArr T}
    (hr : Represents s' m abs) (hm : m.ref.data.blk = w.st.next) (hn : s'.next = w.st.next + 1) (ho : ∀ c, c ≠ w.st.next → s'.heap c = w.st.heap c) :
    ∃ g', RepG g' (w.setVar x (some (.owner m)) s') (A.addOwner x abs) := by
  refine ⟨_, h.addNew (al := m.alloc) (vs := abs.vals) hx hn hr.sched (by rw [← hm]; exact hr.owns.block) ho (fun i => ⟨fun e => e.symm, fun e => e.symm⟩) ?_⟩
  exact varRep_owner (by omega) hr (by rw [hm]; simp [Ghost.push]) (by simp [Ghost.push]) (by simp [SState.addStore])

end MultiArray
