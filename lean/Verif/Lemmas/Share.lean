import Verif.SpecShare
import Verif.Lemmas.ProgStep
import Verif.Lemmas.Handles

/- The relation between a running program with shared storage and its abstract state. -/
set_option autoImplicit false

namespace MultiArray
open Spec Props
variable {T : Type}

/-! ### Parts of arbitrary descriptors -/

/-- The descriptor `d` denotes the abstract part `p` of what `d0` denotes. -/
structure PartIn (d0 d : Desc) (p : APart) : Prop where
  shaped : WellShaped d
  bases : d.bases = p.bases
  extents : d.extents = p.extents
  root : ∀ idx, InBox p.bases p.extents idx → InBox d0.bases d0.extents (p.root idx) ∧ address d idx = address d0 (p.root idx)

theorem partIn_at (dbg : Bool) {d0 d : Desc} {p : APart} (h : PartIn d0 d p) {i : Int}
    (hleg : p.LegalSel (.at i)) : ∃ d', access dbg i d = .ok d' ∧ PartIn d0 d' (p.sel (.at i)) := by
  obtain ⟨b, bs, e, es, hb, he, h1, h2⟩ := hleg
  have hw := h.shaped
  have hdb := h.bases
  have hde := h.extents
  rw [hb] at hdb
  rw [he] at hde
  obtain ⟨q, es', ss, bs'⟩ := d
  simp only at hdb hde
  subst hdb
  subst hde
  match ss, hw with
  | s :: ss, hw =>
    refine ⟨_, access_ok dbg i q e es s ss b bs h1 h2, ⟨by simpa using hw.1, by simpa using hw.2⟩, ?_, ?_, ?_⟩
    · simp [APart.sel, hb]
    · simp [APart.sel, he]
    · intro idx hin
      simp only [APart.sel, hb, he, List.tail_cons] at hin
      have := h.root (i :: idx) (by rw [hb, he]; exact ⟨h1, h2, hin⟩)
      refine ⟨this.1, ?_⟩
      show _ = address d0 (p.root (i :: idx))
      rw [← this.2]
      simp only [address, dot, Ptr.add_add]

theorem partIn_view (dbg : Bool) {d0 d : Desc} {p : APart} (h : PartIn d0 d p) {xs : List IndexArg}
    (hleg : LegalArgs p xs) :
    chainIndices IndexGen.empty xs = .ok (idxGen xs) ∧ generateArrayView dbg (idxGen xs) d = .ok (theView (idxGen xs) d) ∧
    (theView (idxGen xs) d).extents = viewCounts (xs.map IndexArg.toRange) p.bases p.extents ∧ (theView (idxGen xs) d).WF ∧
    ∀ v', ViewHistory (theView (idxGen xs) d) v' →
      PartIn d0 v'.desc ⟨v'.bases, viewCounts (xs.map IndexArg.toRange) p.bases p.extents,
        fun idx => p.root (selected (xs.map IndexArg.toRange) p.bases (relPos idx v'.bases))⟩ := by
  obtain ⟨hne, hl, hno, hrng, hidx⟩ := hleg
  have hw := h.shaped
  have hrs : (idxGen xs).ranges = xs.map IndexArg.toRange := by
    simp [idxGen, genList, hne]
  have hl' : LegalRanges d.bases d.extents (idxGen xs).ranges := by rw [hrs, h.bases, h.extents]; exact hl
  have hno' : NoOverrun d.bases d.extents (idxGen xs).ranges := by rw [hrs, h.bases, h.extents]; exact hno
  have hnum : numRanged (idxGen xs).ranges = (idxGen xs).numDims := by rw [hrs]; exact numRanged_ranges xs hrng
  have hbuilt := built_idxGen xs hidx
  have hgen := genView_legal dbg (idxGen xs) d hw hl' hnum
  have hext : (theView (idxGen xs) d).extents = viewCounts (xs.map IndexArg.toRange) p.bases p.extents := by
    rw [theView_extents, viewCounts_eq hl hno, hrs, h.bases, h.extents]
  have hzr : (idxGen xs).ranges.length ≠ 0 := by rw [hrs]; simpa using hne
  refine ⟨?_, hgen, hext, theView_wf _ d hw hl', ?_⟩
  · exact chainIndices_eq [] xs
  · intro v' hh
    obtain ⟨w, h1, h2, h3, _⟩ := ViewHistory_facts hh (theView_wf _ d hw hl')
    refine ⟨w.wellShaped, rfl, by rw [← hext]; exact h2, ?_⟩
    intro idx hin
    have hin' : InBox v'.bases v'.extents idx := by rw [h2, hext]; exact hin
    have hrel := inBox_relPos _ _ _ hin'
    have hextlen : v'.extents.length = numRanged (idxGen xs).ranges := by
      rw [h2, theView_extents, List.length_map, selExtents_length _ _ _ hl'.length.1 hl'.length.2]
    have hsel : InBox d.bases d.extents (selected (idxGen xs).ranges d.bases (relPos idx v'.bases)) := by
      apply selected_inBox _ _ _ _ hl' hno' (hbuilt.degenerate hzr hnum)
      rw [hextlen, h2, theView_extents] at hrel
      exact hrel
    rw [hrs, h.bases, h.extents] at hsel
    obtain ⟨e1, e2⟩ := h.root _ hsel
    refine ⟨e1, ?_⟩
    rw [view_address hw hl' hh idx hin'.length.1, hrs, h.bases, ← e2]

/-- The view made by `[indices[xs]]`. -/
theorem partIn_theView (dbg : Bool) {d0 d : Desc} {p : APart} (h : PartIn d0 d p) {xs : List IndexArg} (hleg : LegalArgs p xs) :
    PartIn d0 (theView (idxGen xs) d).desc (p.sel (.view xs)) := by
  obtain ⟨_, _, e3, _, e4⟩ := partIn_view dbg h hleg
  have := e4 _ .refl
  have hb : (theView (idxGen xs) d).bases = List.replicate (viewCounts (xs.map IndexArg.toRange) p.bases p.extents).length 0 := by
    rw [← e3]; simp [theView, View.mkView]
  rw [hb] at this
  refine ⟨this.shaped, this.bases, this.extents, ?_⟩
  intro idx hin
  have h' := this.root idx hin
  have hl : idx.length = (viewCounts (xs.map IndexArg.toRange) p.bases p.extents).length := hin.length.1
  simp only [relPos_replicate _ _ hl] at h'
  exact h'

/-- The library's evaluation of an expression gives a descriptor of the part it denotes. -/
theorem resolve_partIn (dbg : Bool) (ss : List Sel) {d0 d : Desc} {p : APart} (h : PartIn d0 d p)
    (hleg : p.LegalPath ss) : ∃ d', resolve dbg ss d = .ok d' ∧ PartIn d0 d' (p.path ss) := by
  induction ss generalizing d p with
  | nil => exact ⟨d, rfl, h⟩
  | cons s ss ih =>
    obtain ⟨h1, h2⟩ := hleg
    cases s with
    | «at» i =>
      obtain ⟨d', e1, e2⟩ := partIn_at dbg h h1
      obtain ⟨d'', e3, e4⟩ := ih e2 h2
      exact ⟨d'', by simp only [resolve, Desc.bracket, e1, Res.bind_ok, e3], e4⟩
    | view xs =>
      obtain ⟨e1, e2, e3, _, e4⟩ := partIn_view dbg h h1
      obtain ⟨d'', e5, e6⟩ := ih (partIn_theView dbg h h1) h2
      exact ⟨d'', by simp only [resolve, e1, Res.bind_ok, Desc.slice, e2, e5], e6⟩
    | viewFrom xs bs =>
      obtain ⟨hla, hlen⟩ := h1
      obtain ⟨e1, e2, e3, _, e4⟩ := partIn_view dbg h hla
      have hri : (theView (idxGen xs) d).reindexList bs = .ok { theView (idxGen xs) d with
          bases := bs, originOffset := calcIndexingOffset (theView (idxGen xs) d).strides bs } := by
        have hl : (theView (idxGen xs) d).extents.length = bs.length := by rw [e3, hlen]
        unfold View.reindexList
        simp [copyN, View.numDims, hl]
      have := e4 _ (.reindexList .refl hri)
      obtain ⟨d'', e5, e6⟩ := ih (p := p.sel (.viewFrom xs bs)) ⟨this.shaped, this.bases, this.extents, this.root⟩ h2
      exact ⟨d'', by simp only [resolve, e1, Res.bind_ok, Desc.slice, e2, hri, e5], e6⟩

theorem APart.path_append (p : APart) (ss ss' : List Sel) : p.path (ss ++ ss') = (p.path ss).path ss' := by
  induction ss generalizing p with
  | nil => rfl
  | cons s ss ih => exact ih _

theorem APart.legalPath_append (p : APart) (ss ss' : List Sel) : p.LegalPath (ss ++ ss') ↔ p.LegalPath ss ∧ (p.path ss).LegalPath ss' := by
  induction ss generalizing p with
  | nil => simp [APart.LegalPath, APart.path]
  | cons s ss ih => simp only [List.cons_append, APart.LegalPath, APart.path, ih, and_assoc]

/-! ### Storages and blocks -/

/-- Which block each storage is, and which allocator provided it. -/
structure Ghost where
  blk : Nat → Nat
  prov : Nat → Nat

/-- Memory holds exactly the live storages. -/
structure MemRep (g : Ghost) (s : St T) (stores : Nat → Option (List T)) (count : Nat) : Prop where
  sane : SaneHeap s
  sched : s.sched = []
  pos : ∀ i, i < count → 0 < g.blk i ∧ g.blk i < s.next
  inj : ∀ i j, i < count → j < count → g.blk i = g.blk j → i = j
  val : ∀ i, i < count → s.heap (g.blk i) = (stores i).map (fun vs => ⟨g.prov i, vs.map .obj⟩)
  fresh : ∀ i, count ≤ i → stores i = none
  noLeak : ∀ b, s.heap b ≠ none → ∃ i, i < count ∧ g.blk i = b

/-- The descriptor `d` denotes the part `p`. -/
structure PlaceRep (g : Ghost) (stores : Nat → Option (List T)) (count : Nat) (d : Desc) (p : SPart) : Prop where
  lt : p.store < count
  shaped : WellShaped d
  bases : d.bases = p.bases
  extents : d.extents = p.extents
  addr : ∀ idx, InBox p.bases p.extents idx → address d idx = ⟨g.blk p.store, (p.place idx : Int)⟩
  bound : ∀ vs, stores p.store = some vs → ∀ idx, InBox p.bases p.extents idx → p.place idx < vs.length

/-- The array header `a` is the array `h`. -/
structure HdrRep (g : Ghost) (stores : Nat → Option (List T)) (count : Nat) (a : ARef) (h : SArr) : Prop where
  lt : h.store < count
  reach : Reachable h.extents.length a
  data : a.data = ⟨g.blk h.store, (h.first : Int)⟩
  bases : a.bases = h.bases
  extents : a.extents = h.extents
  order : a.storage = h.order
  bound : ∀ vs, stores h.store = some vs → h.first + h.extents.prod ≤ vs.length

/-- What a variable of the running program holds, and what the abstract machine says. -/
def VarRep (g : Ghost) (sc : Scope) (stores : Nat → Option (List T)) (count : Nat) : Option CVar → Option SVar → Prop
  | none, none => True
  | some (.owner a), some (.owner h) => HdrRep g stores count a.ref h ∧ h.first = 0 ∧ a.ownBase = a.ref.data ∧ a.allocated = a.ref.numElements ∧
      g.prov h.store = a.alloc ∧ ∃ vs, stores h.store = some vs ∧ vs.length = h.extents.prod
  | some (.ref a), some (.ref h) => HdrRep g stores count a h
  | some (.view v), some (.view p) => v.WF ∧ PlaceRep g stores count v.desc p
  | some (.sub s), some (.sub o p) => s.owner = o ∧ ∃ d, s.desc sc = .ok d ∧ PlaceRep g stores count d p
  | some (.sub _), some .stale => True
  | some (.buffer q n), some (.buffer i) => i < count ∧ q = ⟨g.blk i, 0⟩ ∧ ∃ vs, stores i = some vs ∧ vs.length = n
  | _, _ => False

/-- The variable owns storage `i`. -/
def OwnsStore : Option SVar → Nat → Prop
  | some (.owner h), i => h.store = i
  | some (.buffer j), i => j = i
  | _, _ => False

/-- The running program `w` represents the abstract state `A`. -/
structure RepG (g : Ghost) (w : SWorld T) (A : SState T) : Prop where
  mem : MemRep g w.st A.stores A.count
  var : ∀ x, VarRep g w.scope A.stores A.count (w.vars x) (A.vars x)
  uniq : ∀ x y i, OwnsStore (A.vars x) i → OwnsStore (A.vars y) i → x = y
  owned : ∀ i, A.stores i ≠ none → ∃ x, OwnsStore (A.vars x) i

/-! ### Changes of storage -/

/-- No storage of the old ones changes its size or comes back to life. -/
structure Grow (g g' : Ghost) (st st' : Nat → Option (List T)) (c c' : Nat) : Prop where
  count : c ≤ c'
  blk : ∀ i, i < c → g'.blk i = g.blk i
  prov : ∀ i, i < c → g'.prov i = g.prov i
  len : ∀ i, i < c → ∀ vs', st' i = some vs' → ∃ vs, st i = some vs ∧ vs'.length = vs.length

variable {g g' : Ghost} {st st' : Nat → Option (List T)} {c c' : Nat}

theorem Grow.refl (g : Ghost) (st : Nat → Option (List T)) (c : Nat) : Grow g g st st c c :=
  ⟨Nat.le_refl _, fun _ _ => rfl, fun _ _ => rfl, fun _ _ vs h => ⟨vs, h, rfl⟩⟩

theorem PlaceRep.grow {d : Desc} {p : SPart} (h : PlaceRep g st c d p) (hG : Grow g g' st st' c c') : PlaceRep g' st' c' d p := by
  refine ⟨Nat.lt_of_lt_of_le h.lt hG.count, h.shaped, h.bases, h.extents, ?_, ?_⟩
  · intro idx hi; rw [hG.blk _ h.lt]; exact h.addr idx hi
  · intro vs' hv idx hi
    obtain ⟨vs, h1, h2⟩ := hG.len _ h.lt vs' hv
    rw [h2]; exact h.bound vs h1 idx hi

theorem HdrRep.grow {a : ARef} {h : SArr} (hh : HdrRep g st c a h) (hG : Grow g g' st st' c c') : HdrRep g' st' c' a h := by
  refine ⟨Nat.lt_of_lt_of_le hh.lt hG.count, hh.reach, by rw [hG.blk _ hh.lt]; exact hh.data, hh.bases, hh.extents, hh.order, ?_⟩
  intro vs' hv
  obtain ⟨vs, h1, h2⟩ := hG.len _ hh.lt vs' hv
  rw [h2]; exact hh.bound vs h1

theorem VarRep.grow {sc sc' : Scope} {cv : Option CVar} {v : Option SVar} (h : VarRep g sc st c cv v) (hG : Grow g g' st st' c c')
    (hlive : ∀ i, OwnsStore v i → st' i ≠ none) (hsc : ∀ o p, v = some (.sub o p) → sc' o = sc o) : VarRep g' sc' st' c' cv v := by
  match cv, v, h with
  | none, none, _ => trivial
  | some (.owner a), some (.owner h), hh =>
    obtain ⟨h1, h2, h3, h4, h5, vs, h6, h7⟩ := hh
    obtain ⟨vs', hv⟩ := Option.ne_none_iff_exists'.mp (hlive h.store rfl)
    obtain ⟨us, u1, u2⟩ := hG.len _ h1.lt vs' hv
    rw [h6] at u1; cases u1
    exact ⟨h1.grow hG, h2, h3, h4, by rw [hG.prov _ h1.lt]; exact h5, vs', hv, by rw [u2, h7]⟩
  | some (.ref a), some (.ref h), hh => exact HdrRep.grow hh hG
  | some (.view v), some (.view p), hh => exact ⟨hh.1, hh.2.grow hG⟩
  | some (.sub s), some (.sub o p), hh =>
    obtain ⟨h1, d, h2, h3⟩ := hh
    refine ⟨h1, d, ?_, h3.grow hG⟩
    rw [← h2]
    unfold SubObj.desc
    rw [h1, hsc o p rfl]
  | some (.sub _), some .stale, _ => trivial
  | some (.buffer q n), some (.buffer i), hh =>
    obtain ⟨h1, h2, vs, h3, h4⟩ := hh
    obtain ⟨vs', hv⟩ := Option.ne_none_iff_exists'.mp (hlive i rfl)
    obtain ⟨us, u1, u2⟩ := hG.len _ h1 vs' hv
    rw [h3] at u1; cases u1
    exact ⟨Nat.lt_of_lt_of_le h1 hG.count, by rw [hG.blk _ h1]; exact h2, vs', hv, by rw [u2, h4]⟩

/-- A whole array is a part of its storage. -/
theorem HdrRep.place {a : ARef} {h : SArr} (hh : HdrRep g st c a h) : PlaceRep g st c a.desc h.part := by
  have hwf := hh.reach.wf
  have hin : ∀ idx, InBox h.bases h.extents idx → InBox a.bases a.extents idx := fun idx hi => by rw [hh.bases, hh.extents]; exact hi
  refine ⟨hh.lt, hwf.wellShaped, hh.bases, hh.extents, ?_, ?_⟩
  · intro idx hi
    rw [address_at hwf (hin idx hi), hh.data, hh.order, hh.extents, hh.bases]
    simp only [Ptr.add, SArr.part]
    congr 1
  · intro vs hv idx hi
    have h1 := place_lt hwf (posList_inShape (hin idx hi))
    rw [show a.numElements = a.numElems from rfl, hwf.num_eq, product_eq, hh.extents, hh.order, hh.bases] at h1
    have := hh.bound vs hv
    show h.first + Spec.place h.order h.extents (posList h.bases idx) < vs.length
    omega

/-- A part of a part. -/
theorem PlaceRep.path {d d' : Desc} {p : SPart} (h : PlaceRep g st c d p) {ss : List Sel} (hp : PartIn d d' (p.whole.path ss)) :
    PlaceRep g st c d' (p.path ss) := by
  have key : ∀ idx, InBox (p.path ss).bases (p.path ss).extents idx → InBox p.bases p.extents ((p.whole.path ss).root idx) := by
    intro idx hi
    have := (hp.root idx hi).1
    rw [h.bases, h.extents] at this
    exact this
  refine ⟨h.lt, hp.shaped, hp.bases, hp.extents, ?_, ?_⟩
  · intro idx hi
    rw [(hp.root idx hi).2]
    exact h.addr _ (key idx hi)
  · intro vs hv idx hi
    exact h.bound vs hv _ (key idx hi)

theorem PlaceRep.self {d : Desc} {p : SPart} (h : PlaceRep g st c d p) : PartIn d d p.whole :=
  ⟨h.shaped, h.bases, h.extents, fun idx hi => ⟨by rw [h.bases, h.extents]; exact hi, rfl⟩⟩

theorem PlaceRep.resolve (dbg : Bool) {d : Desc} {p : SPart} (h : PlaceRep g st c d p) {ss : List Sel} (hleg : p.whole.LegalPath ss) :
    ∃ d', resolve dbg ss d = .ok d' ∧ PlaceRep g st c d' (p.path ss) := by
  obtain ⟨d', h1, h2⟩ := resolve_partIn dbg ss h.self hleg
  exact ⟨d', h1, h.path h2⟩

/-- What a variable denotes. -/
theorem RepG.desc {w : SWorld T} {A : SState T} (h : RepG g w A) {x : Nat} {v : SVar} {p : SPart} (hx : A.vars x = some v) (hp : v.part = some p) :
    ∃ d, w.desc x = some d ∧ PlaceRep g A.stores A.count d p := by
  have hv := h.var x
  rw [hx] at hv
  unfold SWorld.desc
  match hw : w.vars x, v, hv with
  | none, .owner _, hv | none, .ref _, hv | none, .view _, hv | none, .sub _ _, hv => exact hv.elim
  | some (.owner a), .owner h, hv =>
    cases hp
    exact ⟨_, rfl, hv.1.place⟩
  | some (.ref a), .ref h, hv =>
    cases hp
    exact ⟨_, rfl, HdrRep.place hv⟩
  | some (.view a), .view p, hv =>
    cases hp
    exact ⟨_, rfl, hv.2⟩
  | some (.sub s), .sub o p, hv =>
    cases hp
    obtain ⟨_, d, h1, h2⟩ := hv
    exact ⟨d, by simp [h1, Res.val?], h2⟩
  | _, .stale, _ => cases hp
  | _, .buffer _, _ => cases hp
  | some (.owner a), .ref _, hv | some (.owner a), .view _, hv | some (.owner a), .sub _ _, hv => exact hv.elim
  | some (.ref a), .owner _, hv | some (.ref a), .view _, hv | some (.ref a), .sub _ _, hv => exact hv.elim
  | some (.view a), .owner _, hv | some (.view a), .ref _, hv | some (.view a), .sub _ _, hv => exact hv.elim
  | some (.sub a), .owner _, hv | some (.sub a), .ref _, hv | some (.sub a), .view _, hv => exact hv.elim
  | some (.buffer _ _), .owner _, hv | some (.buffer _ _), .ref _, hv | some (.buffer _ _), .view _, hv | some (.buffer _ _), .sub _ _, hv =>
    exact hv.elim

/-- The expression `x ss`. -/
theorem RepG.lookup {w : SWorld T} {A : SState T} (h : RepG g w A) (dbg : Bool) {x : Nat} {ss : List Sel} {p : SPart} (hp : A.Part x ss p) :
    ∃ d, w.lookup dbg x ss = some d ∧ PlaceRep g A.stores A.count d p ∧ A.part x ss = some p ∧ A.stores p.store ≠ none := by
  obtain ⟨v, p0, h1, h2, h3, h4, rfl⟩ := hp
  obtain ⟨d, e1, e2⟩ := h.desc h1 h2
  obtain ⟨d', f1, f2⟩ := e2.resolve dbg h4
  exact ⟨d', by simp [SWorld.lookup, e1, f1, Res.val?], f2, by simp [SState.part, h1, h2], h3⟩

/-! ### Elements -/

theorem get?_block {s : St T} {b al : Nat} {vs : List T} (hb : s.heap b = some ⟨al, vs.map .obj⟩) (k : Nat) :
    s.get? ⟨b, (k : Int)⟩ = vs[k]? := by
  unfold St.get? St.cell?
  simp only [hb, Int.natCast_nonneg, if_true, Int.toNat_natCast, List.getElem?_map]
  cases vs[k]? <;> rfl

theorem RepG.block {w : SWorld T} {A : SState T} (h : RepG g w A) {i : Nat} {vs : List T} (hv : A.stores i = some vs) :
    i < A.count ∧ w.st.heap (g.blk i) = some ⟨g.prov i, vs.map .obj⟩ := by
  have hi : i < A.count := by
    by_contra hc
    rw [h.mem.fresh i (by omega)] at hv
    cases hv
  exact ⟨hi, by rw [h.mem.val i hi, hv]; rfl⟩

theorem RepG.get {w : SWorld T} {A : SState T} (h : RepG g w A) {d : Desc} {p : SPart} (hp : PlaceRep g A.stores A.count d p)
    (hlive : A.stores p.store ≠ none) {idx : List Int} (hin : InBox p.bases p.extents idx) :
    ∃ v, w.st.get? (address d idx) = some v ∧ A.get p idx = some v := by
  obtain ⟨vs, hv⟩ := Option.ne_none_iff_exists'.mp hlive
  have hb := hp.bound vs hv idx hin
  refine ⟨vs[p.place idx], ?_, by simp [SState.get, hv, hb]⟩
  rw [hp.addr idx hin, get?_block (h.block hv).2]
  simp [hb]

/-- Only values changed. -/
structure SameShape (A A' : SState T) : Prop where
  vars : A'.vars = A.vars
  count : A'.count = A.count
  len : ∀ i, (A'.stores i).map List.length = (A.stores i).map List.length

theorem SameShape.refl (A : SState T) : SameShape A A := ⟨rfl, rfl, fun _ => rfl⟩

theorem SameShape.trans {A B C : SState T} (h1 : SameShape A B) (h2 : SameShape B C) : SameShape A C :=
  ⟨h2.vars.trans h1.vars, h2.count.trans h1.count, fun i => (h2.len i).trans (h1.len i)⟩

theorem SameShape.live {A A' : SState T} (h : SameShape A A') (i : Nat) : A'.stores i ≠ none ↔ A.stores i ≠ none := by
  have := h.len i
  cases h1 : A'.stores i <;> cases h2 : A.stores i <;> simp_all

theorem SameShape.grow {A A' : SState T} (h : SameShape A A') (g : Ghost) : Grow g g A.stores A'.stores A.count A'.count := by
  refine ⟨by rw [h.count], fun _ _ => rfl, fun _ _ => rfl, ?_⟩
  intro i _ vs' hv
  have := h.len i
  rw [hv] at this
  cases hs : A.stores i with
  | none => rw [hs] at this; cases this
  | some vs => rw [hs] at this; simp at this; exact ⟨vs, rfl, this⟩

theorem RepG.sameShape {w : SWorld T} {A A' : SState T} (h : RepG g w A) (hs : SameShape A A') {s' : St T}
    (hm : MemRep g s' A'.stores A'.count) : RepG g { w with st := s' } A' := by
  refine ⟨hm, fun x => ?_, ?_, ?_⟩
  · rw [hs.vars]
    refine (h.var x).grow (hs.grow g) (fun i hi => ?_) (fun _ _ _ => rfl)
    rw [hs.live]
    have hv := h.var x
    match hc : w.vars x, hA : A.vars x with
    | some (.owner a), some (.owner hh) =>
      rw [hc, hA] at hv; rw [hA] at hi; cases hi
      obtain ⟨_, _, _, _, _, vs, e, _⟩ := hv
      rw [e]; simp
    | some (.buffer _ _), some (.buffer j) =>
      rw [hc, hA] at hv; rw [hA] at hi; cases hi
      obtain ⟨_, _, vs, e, _⟩ := hv
      rw [e]; simp
    | _, none => rw [hA] at hi; exact hi.elim
    | _, some (.ref _) => rw [hA] at hi; exact hi.elim
    | _, some (.view _) => rw [hA] at hi; exact hi.elim
    | _, some (.sub _ _) => rw [hA] at hi; exact hi.elim
    | _, some .stale => rw [hA] at hi; exact hi.elim
    | none, some (.owner _) | some (.ref _), some (.owner _) | some (.view _), some (.owner _) | some (.sub _), some (.owner _)
    | some (.buffer _ _), some (.owner _) => rw [hc, hA] at hv; exact hv.elim
    | none, some (.buffer _) | some (.ref _), some (.buffer _) | some (.view _), some (.buffer _) | some (.sub _), some (.buffer _)
    | some (.owner _), some (.buffer _) => rw [hc, hA] at hv; exact hv.elim
  · rw [hs.vars]; exact h.uniq
  · intro i hi
    rw [hs.vars]
    exact h.owned i ((hs.live i).mp hi)

theorem sameShape_setStore (A : SState T) {i : Nat} {vs vs' : List T} (hv : A.stores i = some vs) (hl : vs'.length = vs.length) :
    SameShape A (A.setStore i (some vs')) := by
  refine ⟨rfl, rfl, fun j => ?_⟩
  simp only [SState.setStore]
  by_cases hj : j = i
  · subst hj; simp [hv, hl]
  · simp [hj]

/-- A block gets new values. -/
theorem MemRep.update {s s' : St T} {stores : Nat → Option (List T)} {count : Nat} (h : MemRep g s stores count) {i : Nat} {vs' : List T} (hi : i < count)
    (hb : s'.heap (g.blk i) = some ⟨g.prov i, vs'.map .obj⟩) (ho : ∀ b, b ≠ g.blk i → s'.heap b = s.heap b) (hn : s'.next = s.next)
    (hs : s'.sched = []) : MemRep g s' (fun j => if j = i then some vs' else stores j) count := by
  refine ⟨⟨by rw [hn]; exact h.sane.1, fun b hb' => ?_⟩, hs, by rw [hn]; exact h.pos, h.inj, ?_, ?_, ?_⟩
  · rw [hn] at hb'
    have := (h.pos i hi).2
    rw [ho b (by omega)]
    exact h.sane.2 b hb'
  · intro j hj
    by_cases hji : j = i
    · subst hji; simp [hb]
    · simp only [hji, if_false]
      rw [ho _ (fun e => hji (h.inj j i hj hi e))]
      exact h.val j hj
  · intro j hj
    have : j ≠ i := by omega
    simp only [this, if_false]
    exact h.fresh j hj
  · intro b hb'
    by_cases hbi : b = g.blk i
    · exact ⟨i, hi, hbi.symm⟩
    · rw [ho b hbi] at hb'
      exact h.noLeak b hb'

theorem assignCell_block {s : St T} {b al : Nat} {vs : List T} (hb : s.heap b = some ⟨al, vs.map .obj⟩) (hs : s.sched = []) {k : Nat} (hk : k < vs.length) (v : T) :
    ∃ s', assignCell ⟨b, (k : Int)⟩ v s = .ok () s' ∧ s'.heap b = some ⟨al, (vs.set k v).map .obj⟩ ∧ (∀ c, c ≠ b → s'.heap c = s.heap c) ∧
      s'.next = s.next ∧ s'.sched = [] := by
  have hg : s.get? ⟨b, (k : Int)⟩ = some vs[k] := by rw [get?_block hb]; simp [hk]
  refine ⟨s.setCell ⟨b, (k : Int)⟩ (.obj v), ?_, ?_, ?_, ?_, ?_⟩
  · unfold assignCell; simp only [hg, hs]
  · simp only [St.setCell, hb, if_true, Int.toNat_natCast, List.map_set]
  · intro c hc; simp only [St.setCell, hb, hc, if_false]
  · simp only [St.setCell, hb]
  · simp only [St.setCell, hb, hs]

theorem RepG.put {w : SWorld T} {A : SState T} (h : RepG g w A) {d : Desc} {p : SPart} (hp : PlaceRep g A.stores A.count d p)
    (hlive : A.stores p.store ≠ none) {idx : List Int} (hin : InBox p.bases p.extents idx) (v : T) :
    ∃ s' A', assignCell (address d idx) v w.st = .ok () s' ∧ A.put p idx v = some A' ∧ RepG g { w with st := s' } A' ∧ SameShape A A' := by
  obtain ⟨vs, hv⟩ := Option.ne_none_iff_exists'.mp hlive
  have hb := hp.bound vs hv idx hin
  obtain ⟨s', e1, e2, e3, e4, e5⟩ := assignCell_block (h.block hv).2 h.mem.sched hb v
  have hs := sameShape_setStore A hv (vs' := vs.set (p.place idx) v) (by simp)
  refine ⟨s', _, by rw [hp.addr idx hin]; exact e1, by simp [SState.put, hv], h.sameShape hs ?_, hs⟩
  exact h.mem.update hp.lt e2 e3 e4 e5

theorem PlaceRep.inBox_atPos {d : Desc} {p : SPart} (hp : PlaceRep g st c d p) {k : List Nat} (hk : InShape p.extents k) :
    InBox p.bases p.extents (atPos p.bases k) := by
  rw [← hp.bases]
  exact MultiArray.inBox_atPos (by rw [hp.shaped.2, hp.extents]) hk

theorem RepG.elem {w : SWorld T} {A : SState T} (h : RepG g w A) {d : Desc} {p : SPart} (hp : PlaceRep g A.stores A.count d p)
    (hlive : A.stores p.store ≠ none) {k : List Nat} (hk : InShape p.extents k) :
    ∃ v, elemAt w.st d k = some v ∧ A.get p (atPos p.bases k) = some v := by
  obtain ⟨v, h1, h2⟩ := h.get hp hlive (hp.inBox_atPos hk)
  exact ⟨v, by unfold elemAt; rw [hp.bases]; exact h1, h2⟩

/-- Copying elements, in any order of positions. -/
theorem RepG.copy {w : SWorld T} {A : SState T} (h : RepG g w A) {d d' : Desc} {p q : SPart} (hp : PlaceRep g A.stores A.count d p)
    (hq : PlaceRep g A.stores A.count d' q) (lp : A.stores p.store ≠ none) (lq : A.stores q.store ≠ none) (he : p.extents = q.extents)
    (ks : List (List Nat)) (hks : ∀ k ∈ ks, InShape p.extents k) :
    ∃ s' A', copySeq (ks.map (fun k => (address d' (atPos d'.bases k), address d (atPos d.bases k)))) w.st = .ok () s' ∧
      SState.copy p q ks A = some A' ∧ RepG g { w with st := s' } A' ∧ SameShape A A' := by
  induction ks generalizing w A with
  | nil => exact ⟨w.st, A, rfl, rfl, h, .refl A⟩
  | cons k ks ih =>
    have hk := hks k (by simp)
    obtain ⟨v, g1, g2⟩ := h.get hq lq (hq.inBox_atPos (by rw [← he]; exact hk))
    obtain ⟨s1, A1, p1, p2, p3, p4⟩ := h.put hp lp (hp.inBox_atPos hk) v
    obtain ⟨s', A', c1, c2, c3, c4⟩ := ih (w := { w with st := s1 }) p3 (hp.grow (p4.grow g)) (hq.grow (p4.grow g))
      ((p4.live _).mpr lp) ((p4.live _).mpr lq) (fun k hk => hks k (by simp [hk]))
    refine ⟨s', A', ?_, ?_, c3, p4.trans c4⟩
    · simp only [List.map_cons, copySeq]
      rw [hq.bases, hp.bases] at *
      rw [Exec.bind_ok (load_ok g1), Exec.bind_ok p1]
      exact c1
    · simp only [SState.copy, g2, Option.bind_some, p2]
      exact c2

/-- Transforming elements. -/
theorem RepG.map {w : SWorld T} {A : SState T} (h : RepG g w A) {d : Desc} {p : SPart} (hp : PlaceRep g A.stores A.count d p)
    (lp : A.stores p.store ≠ none) (f : T → T) (ks : List (List Nat)) (hks : ∀ k ∈ ks, InShape p.extents k) :
    ∃ s' A', mapSeq f (ks.map (fun k => address d (atPos d.bases k))) w.st = .ok () s' ∧
      SState.map p f ks A = some A' ∧ RepG g { w with st := s' } A' ∧ SameShape A A' := by
  induction ks generalizing w A with
  | nil => exact ⟨w.st, A, rfl, rfl, h, .refl A⟩
  | cons k ks ih =>
    have hk := hks k (by simp)
    obtain ⟨v, g1, g2⟩ := h.get hp lp (hp.inBox_atPos hk)
    obtain ⟨s1, A1, p1, p2, p3, p4⟩ := h.put hp lp (hp.inBox_atPos hk) (f v)
    obtain ⟨s', A', c1, c2, c3, c4⟩ := ih (w := { w with st := s1 }) p3 (hp.grow (p4.grow g)) ((p4.live _).mpr lp) (fun k hk => hks k (by simp [hk]))
    refine ⟨s', A', ?_, ?_, c3, p4.trans c4⟩
    · simp only [List.map_cons, mapSeq]
      rw [hp.bases] at *
      rw [Exec.bind_ok (load_ok g1), Exec.bind_ok p1]
      exact c1
    · simp only [SState.map, g2, Option.bind_some, p2]
      exact c2

/-- Copying a part to itself changes nothing. -/
theorem SState.copy_self (p : SPart) (ks : List (List Nat)) (A : SState T) (h : ∀ k ∈ ks, ∃ v, A.get p (atPos p.bases k) = some v) :
    SState.copy p p ks A = some A := by
  induction ks with
  | nil => rfl
  | cons k ks ih =>
    obtain ⟨v, hv⟩ := h k (by simp)
    have hput : A.put p (atPos p.bases k) v = some A := by
      unfold SState.get at hv
      cases hs : A.stores p.store with
      | none => rw [hs] at hv; cases hv
      | some vs =>
        rw [hs, Option.bind_some] at hv
        simp only [SState.put, hs, Option.map_some, Option.some.injEq, SState.setStore]
        have : vs.set (p.place (atPos p.bases k)) v = vs := by
          obtain ⟨hlt, rfl⟩ := List.getElem?_eq_some_iff.mp hv
          exact List.set_getElem_self _
        rw [this]
        have : (fun j => if j = p.store then some vs else A.stores j) = A.stores := by
          funext j
          by_cases hj : j = p.store
          · simp [hj, hs]
          · simp [hj]
        rw [this]
    simp only [SState.copy, hv, Option.bind_some, hput]
    exact ih (fun k hk => h k (by simp [hk]))

end MultiArray
