/-
Properties C18 to C21 and C52: the small classes.
-/
import Verif.Proofs.SolutionObjects

namespace Verif.Props
open Verif.Spec

/-! ### C18: ConnectivityGraph -/

/-- **C18** What the constructor checks: an even number of entries, none of them too large. -/
theorem C18_what_is_rejected (n : Int) (table : List Int) :
    (ConnectivityGraph.create n table = .throw .logicError ↔
      table.length % 2 ≠ 0 ∨ ∃ c ∈ table, n ≤ c) ∧
    ((∃ g, ConnectivityGraph.create n table = .ok g) ↔
      table.length % 2 = 0 ∧ ∀ c ∈ table, c < n) := by
  unfold ConnectivityGraph.create
  by_cases h : table.length % 2 ≠ 0
  · simp [h]
  · have h' : table.length % 2 = 0 := by omega
    simp only [h', ne_eq, not_true_eq_false, if_false, false_or, true_and]
    by_cases h2 : ConnectivityGraph.hasTooLarge n table = true
    · have := (ConnectivityGraph.hasTooLarge_iff n table).mp h2
      simp only [h2, if_true, true_iff]
      refine ⟨this, ⟨?_, ?_⟩⟩
      · rintro ⟨g, hg⟩; cases hg
      · intro hall
        obtain ⟨c, hc, hn⟩ := this
        have := hall c hc; omega
    · have := mt (ConnectivityGraph.hasTooLarge_iff n table).mpr h2
      simp only [h2]
      refine ⟨by simpa using this, ?_⟩
      simp only [Bool.false_eq_true, if_false, Res.ok.injEq, exists_eq', true_iff]
      intro c hc
      by_contra hn
      exact this ⟨c, hc, by omega⟩

/-- **C18** for tables without negative entries: exactly the tables with an even number
    of entries, all of them in `[0, n)`, are accepted, and they are returned verbatim.
    *Missing from the full statement*: negative entries are not rejected, see
    `C18_negative_is_accepted`. -/
theorem C18_table_partial (n : Nat) (hn : n < 2147483648) (table : List Int) (h0 : ∀ c ∈ table, 0 ≤ c) :
    (ConnectivityGraph.create n table = .throw .logicError ↔
      table.length % 2 ≠ 0 ∨ ∃ c ∈ table, ¬ (0 ≤ c ∧ c < n)) ∧
    ∀ g, ConnectivityGraph.create n table = .ok g →
      g.numCells = n ∧ g.numConnections = table.length / 2 ∧
      ∀ i < table.length / 2, ∃ a b, table[2 * i]? = some a ∧ table[2 * i + 1]? = some b ∧
        g.connection i = .ok (a, b) := by
  refine ⟨?_, ?_⟩
  · rw [(C18_what_is_rejected n table).1]
    refine or_congr Iff.rfl ?_
    constructor
    · rintro ⟨c, hc, h⟩; exact ⟨c, hc, by omega⟩
    · rintro ⟨c, hc, h⟩; have := h0 c hc; exact ⟨c, hc, by omega⟩
  · intro g hg
    unfold ConnectivityGraph.create at hg
    split at hg
    · cases hg
    · split at hg
      · cases hg
      · simp only [Res.ok.injEq] at hg
        subst hg
        refine ⟨?_, rfl, ?_⟩
        · show sizeOfInt n = n
          unfold sizeOfInt; omega
        · intro i hi
          have h1 : 2 * i < table.length := by omega
          have h2 : 2 * i + 1 < table.length := by omega
          refine ⟨table[2 * i], table[2 * i + 1], List.getElem?_eq_getElem h1,
            List.getElem?_eq_getElem h2, ?_⟩
          unfold ConnectivityGraph.connection
          have : (⟨sizeOfInt n, table⟩ : ConnectivityGraph).numConnections = table.length / 2 := rfl
          simp only [this, hi, decide_true]
          simp [assertThat, rd_ok h1, rd_ok h2]

/-- **C18**, failure of the full statement: a table with negative entries is accepted. -/
theorem C18_negative_is_accepted : ∃ g, ConnectivityGraph.create 2 [0, -1] = .ok g :=
  ⟨_, rfl⟩

example : ∃ g, ConnectivityGraph.create 3 [0, 1, 2, 1] = .ok g ∧ g.connection 1 = .ok (2, 1) :=
  ⟨_, rfl, rfl⟩

/-! ### C19: ConnectionValues -/

/-- The last value written to `(c, p)`. -/
def lastWritten {R : Type} (ws : List (Nat × Nat × R)) (c p : Nat) : Option R :=
  lastSome (fun w => if w.1 = c ∧ w.2.1 = p then some w.2.2 else none) ws

/-- Writes one after the other; a write that throws leaves the object as it is. -/
def writeAll {R : Type} (v : ConnectionValues R) (ws : List (Nat × Nat × R)) :
    Res (ConnectionValues R) :=
  forEach ws v fun v w => match v.put w.1 w.2.1 w.2.2 with
    | .throw _ => .ok v
    | r => r

/-- **C19** After any writes, in range or not, reading `(c, p)` gives the last value written
    there, initially zero; access throws exactly when out of range; the dimensions stay. -/
theorem C19_two_dimensional_array {R : Type} [Arith R] (nconn nphase : Nat)
    (hsize : nconn * nphase < SIZE_MOD) (ws : List (Nat × Nat × R)) :
    ∃ v, writeAll (ConnectionValues.create nconn nphase) ws = .ok v ∧
      v.numConnections = nconn ∧ v.numPhases = nphase ∧
      (∀ c < nconn, ∀ p < nphase, v.get c p = .ok ((lastWritten ws c p).getD Arith.zero)) ∧
      (∀ c p, ¬ (c < nconn ∧ p < nphase) → v.get c p = .throw .logicError ∧
        ∀ x, v.put c p x = .throw .logicError) := by
  have slotlt : ∀ c p, c < nconn → p < nphase → c * nphase + p < nconn * nphase := by
    intro c p hc hp
    calc c * nphase + p < c * nphase + nphase := by omega
      _ = (c + 1) * nphase := by rw [Nat.add_mul, Nat.one_mul]
      _ ≤ nconn * nphase := Nat.mul_le_mul_right _ hc
  have slotinj : ∀ c p c' p', p < nphase → p' < nphase → c * nphase + p = c' * nphase + p' →
      c = c' ∧ p = p' := by
    intro c p c' p' hp hp' he
    have h1 : (c * nphase + p) / nphase = c := by
      rw [Nat.mul_comm, Nat.mul_add_div (by omega), Nat.div_eq_of_lt hp, Nat.add_zero]
    have h2 : (c' * nphase + p') / nphase = c' := by
      rw [Nat.mul_comm, Nat.mul_add_div (by omega), Nat.div_eq_of_lt hp', Nat.add_zero]
    have : c = c' := by rw [← h1, ← h2, he]
    subst this; exact ⟨rfl, by omega⟩
  suffices H : ∃ v, writeAll (ConnectionValues.create nconn nphase) ws = .ok v ∧
      v.nconn = nconn ∧ v.nphase = nphase ∧ v.data.length = nconn * nphase ∧
      ∀ c < nconn, ∀ p < nphase,
        v.data[c * nphase + p]? = some ((lastWritten ws c p).getD Arith.zero) by
    obtain ⟨v, e, h1, h2, h3, h4⟩ := H
    refine ⟨v, e, h1, h2, ?_, ?_⟩
    · intro c hc p hp
      unfold ConnectionValues.get ConnectionValues.slot
      rw [h1, h2, if_neg (by omega), Nat.mod_eq_of_lt (lt_trans (slotlt c p hc hp) hsize)]
      exact rd_of_getElem? (h4 c hc p hp)
    · intro c p h
      unfold ConnectionValues.get ConnectionValues.put
      rw [h1, h2]
      have : c ≥ nconn ∨ p ≥ nphase := by omega
      simp [this]
  induction ws using List.reverseRecOn with
  | nil =>
    refine ⟨_, rfl, rfl, rfl, ?_, ?_⟩
    · simp [ConnectionValues.create, Nat.mod_eq_of_lt hsize]
    · intro c hc p hp
      simp [ConnectionValues.create, Nat.mod_eq_of_lt hsize, slotlt c p hc hp, lastWritten, lastSome]
  | append_singleton ws w ih =>
    obtain ⟨v, e, h1, h2, h3, h4⟩ := ih
    obtain ⟨c, p, x⟩ := w
    unfold writeAll at e ⊢
    rw [forEach_append, e]
    simp only [Res.ok_bind, forEach_cons, forEach_nil]
    by_cases hin : c < nconn ∧ p < nphase
    · have hs := slotlt c p hin.1 hin.2
      refine ⟨{ v with data := v.data.set (c * nphase + p) x }, ?_, h1, h2, by simp [h3], ?_⟩
      · unfold ConnectionValues.put ConnectionValues.slot
        rw [h1, h2, if_neg (by omega), Nat.mod_eq_of_lt (lt_trans hs hsize), wr_ok (by omega)]
        rfl
      · intro c' hc' p' hp'
        show (v.data.set (c * nphase + p) x)[c' * nphase + p']? = _
        rw [List.getElem?_set]
        unfold lastWritten
        rw [Solution.lastSome_append]
        by_cases he : c = c' ∧ p = p'
        · obtain ⟨rfl, rfl⟩ := he
          simp [h3, hs]
        · have : c * nphase + p ≠ c' * nphase + p' := fun e => he (slotinj _ _ _ _ hin.2 hp' e)
          rw [if_neg this, if_neg he]
          exact h4 c' hc' p' hp'
    · refine ⟨v, ?_, h1, h2, h3, ?_⟩
      · unfold ConnectionValues.put
        have : c ≥ v.nconn ∨ p ≥ v.nphase := by omega
        simp [this]
      · intro c' hc' p' hp'
        unfold lastWritten
        rw [Solution.lastSome_append]
        have he : ¬ (c = c' ∧ p = p') := by omega
        rw [if_neg he]
        exact h4 c' hc' p' hp'

/-- **C19**, limit of the statement: if the product of the dimensions exceeds `size_t`, an
    access within the dimensions is out of bounds. -/
theorem C19_size_overflow {R : Type} [Arith R] :
    (ConnectionValues.create (R := R) 9223372036854775808 2).get 0 0 = .ub .outOfBounds := by
  simp [ConnectionValues.get, ConnectionValues.create, ConnectionValues.slot, SIZE_MOD, rd]

example {R : Type} [Arith R] (x y z : R) : ∃ v, writeAll (ConnectionValues.create (R := R) 3 2)
    [(0, 1, x), (2, 0, y), (5, 0, x), (0, 1, z)] = .ok v ∧ v.get 0 1 = .ok z := by
  obtain ⟨v, h1, _, _, h2, _⟩ := C19_two_dimensional_array (R := R) 3 2 (by decide)
    [(0, 1, x), (2, 0, y), (5, 0, x), (0, 1, z)]
  exact ⟨v, h1, h2 0 (by decide) 1 (by decide)⟩

/-! ### C20: CellSet and CellSetID -/

/-- **C20** A cell set built from `cells` and later insertions contains exactly these cells,
    each once, and keeps its id. -/
theorem C20_cell_set (id : CellSetID) (cells later : List Int) :
    let s := later.foldl CellSet.insert (CellSet.ofCells id cells)
    s.id = id ∧ s.cells.Nodup ∧ ∀ c, c ∈ s.cells ↔ c ∈ cells ∨ c ∈ later := by
  have key : ∀ s : CellSet, (later.foldl CellSet.insert s) = { s with iset := later.foldl setInsert s.iset } := by
    induction later with
    | nil => intro s; rfl
    | cons c later ih => intro s; rw [List.foldl_cons, ih]; rfl
  intro s
  have hs : s = _ := key _
  rw [hs]
  refine ⟨rfl, ?_, ?_⟩
  · exact nodup_foldl_setInsert _ (nodup_foldl_setInsert _ List.nodup_nil)
  · intro c
    show c ∈ later.foldl setInsert (cells.foldl setInsert []) ↔ _
    rw [mem_foldl_setInsert, mem_foldl_setInsert]; simp

/-- **C20** The same cells in another order or multiplicity, given at construction or later, make
    the same set: the sequences visited by iteration are permutations of each other. -/
theorem C20_order_irrelevant (id : CellSetID) (cells later cells' later' : List Int)
    (h : ∀ c, c ∈ cells ∨ c ∈ later ↔ c ∈ cells' ∨ c ∈ later') :
    (later.foldl CellSet.insert (CellSet.ofCells id cells)).cells.Perm
      (later'.foldl CellSet.insert (CellSet.ofCells id cells')).cells := by
  obtain ⟨_, h1, h2⟩ := C20_cell_set id cells later
  obtain ⟨_, h3, h4⟩ := C20_cell_set id cells' later'
  rw [List.perm_ext_iff_of_nodup h1 h3]
  intro c; rw [h2, h4, h]

/-- **C20** `operator<` of `CellSetID` is a strict total order that distinguishes ids exactly
    by their strings; a proper prefix comes first and otherwise the first different byte decides. -/
theorem C20_id_order :
    (∀ x : CellSetID, x.lt x = false) ∧
    (∀ x y z : CellSetID, x.lt y = true → y.lt z = true → x.lt z = true) ∧
    (∀ x y : CellSetID, (x.lt y = false ∧ y.lt x = false) ↔ x.toString = y.toString) ∧
    (∀ (p : Str) (b : UInt8) (s : Str), (CellSetID.mk p).lt ⟨p ++ b :: s⟩ = true) ∧
    (∀ (p : Str) (a b : UInt8) (s t : Str), a < b →
      (CellSetID.mk (p ++ a :: s)).lt ⟨p ++ b :: t⟩ = true) := by
  refine ⟨fun x => strLt_irrefl _, fun x y z => strLt_trans, ?_, ?_, ?_⟩
  · intro x y
    constructor
    · rintro ⟨h1, h2⟩
      rcases strLt_total x.id y.id with h | h | h
      · rw [show strLt x.id y.id = false from h1] at h; cases h
      · exact h
      · rw [show strLt y.id x.id = false from h2] at h; cases h
    · intro h
      have h : x.id = y.id := h
      exact ⟨by show strLt _ _ = _; rw [h]; exact strLt_irrefl _,
        by show strLt _ _ = _; rw [h]; exact strLt_irrefl _⟩
  · intro p b s
    show strLt p (p ++ b :: s) = true
    induction p with
    | nil => rfl
    | cons a p ih => simpa [strLt] using ih
  · intro p a b s t hab
    show strLt (p ++ a :: s) (p ++ b :: t) = true
    induction p with
    | nil => simp [strLt, hab]
    | cons c p ih => simpa [strLt] using ih

example : ((CellSet.ofCells ⟨[73]⟩ [3, 1, 3]).insert 1).cells = [3, 1] := rfl

/-! ### C21: Solution -/

/-- **C21** A program that creates, copies, moves, destroys and assigns `Solution` objects in any order
    succeeds if it never touches a moved-from or destroyed object, and then every object
    shows the last value assigned to it (or, for a copy, to the original before the copy). -/
theorem C21_last_assigned {R : Type} (ops : List (SolutionOp R)) (logs : Logs R)
    (hl : logRun ops = some logs) :
    ∃ h, SolutionHeap.run ops = .ok h ∧ ∀ (k : Nat) (L : List (Assigned R)), logs[k]? = some (some (some L)) →
      ∃ s, h.view k = .ok s ∧
        s.timeOfFlight = (lastSome Assigned.global? L).getD [] ∧
        (∀ i, s.timeOfFlightOf i = (lastSome (Assigned.tof? i) L).getD []) ∧
        (∀ i, s.concentration i = (lastSome (Assigned.conc? i) L).getD []) ∧
        s.startPoints.Pairwise (· < ·) ∧
        (∀ i, i ∈ s.startPoints ↔ ∃ x, Assigned.conc i x ∈ L) := by
  obtain ⟨h, e, r⟩ := (SolutionHeap.Rep.empty.run ops).1 logs hl
  refine ⟨h, e, ?_⟩
  intro k L hk
  obtain ⟨h1, h2, h3, h4⟩ := Solution.replay_spec L
  refine ⟨_, r.view hk, h1, ?_, ?_, OMap.keys_sorted h4, ?_⟩
  · intro i
    unfold Solution.timeOfFlightOf Solution.solutionValues
    rw [h2]; cases lastSome (Assigned.tof? i) L <;> rfl
  · intro i
    unfold Solution.concentration Solution.solutionValues
    rw [h3]; cases lastSome (Assigned.conc? i) L <;> rfl
  · intro i
    show i ∈ (Solution.replay L).tracer.map Prod.fst ↔ _
    rw [← OMap.find_isSome_iff, h3]
    unfold lastSome
    rw [List.findSome?_isSome_iff]
    constructor
    · rintro ⟨e, he, hs⟩
      cases e with
      | conc j x =>
        unfold Assigned.conc? at hs
        by_cases hji : j = i
        · subst hji; exact ⟨x, by simpa using he⟩
        · simp [hji] at hs
      | global t => simp [Assigned.conc?] at hs
      | tof j x => simp [Assigned.conc?] at hs
    · rintro ⟨x, hx⟩
      exact ⟨_, by simpa using hx, by simp [Assigned.conc?]⟩

/-- **C21** A program that uses an object that was moved from (except for moving it again or destroying it), that was
    destroyed, or that does not exist, has undefined behaviour. -/
theorem C21_moved_from {R : Type} (ops : List (SolutionOp R)) (hl : logRun ops = none) :
    ∃ u, SolutionHeap.run ops = .ub u :=
  (SolutionHeap.Rep.empty.run ops).2 hl

/-- **C21** The implementation objects not deleted are as many as the objects neither destroyed nor moved from; none is
    deleted twice, which would be undefined. -/
theorem C21_no_leak {R : Type} (ops : List (SolutionOp R)) (logs : Logs R) (hl : logRun ops = some logs) :
    ∃ h, SolutionHeap.run ops = .ok h ∧ h.live = usable logs := by
  obtain ⟨h, e, r⟩ := (SolutionHeap.Rep.empty.run ops).1 logs hl
  exact ⟨h, e, r.live⟩

/-- **C21** A reference returned by `timeOfFlight()` keeps showing the global field of the object, also after the object
    was moved, until the object that holds the data is destroyed; reading it afterwards is undefined. -/
theorem C21_reference {R : Type} (ops ops' : List (SolutionOp R)) {h h' : SolutionHeap R}
    (hr : SolutionHeap.run ops = .ok h) (hr' : SolutionHeap.run (ops ++ ops') = .ok h') {k a : Nat} (ha : h.deref k = .ok a) :
    match holder h.objs.length (some k) ops' with
    | some j => ∃ s, h'.view j = .ok s ∧ h'.readReference a = .ok s.timeOfFlight
    | none => ∃ u, h'.readReference a = .ub u := by
  have ok : ∀ {ops : List (SolutionOp R)} {h}, SolutionHeap.run ops = .ok h → ∃ l, SolutionHeap.Rep h l := by
    intro ops h hr
    cases hl : ops.foldlM logStep ([] : Logs R) with
    | none =>
      obtain ⟨u, hu⟩ := (SolutionHeap.Rep.empty.run ops).2 hl
      unfold SolutionHeap.run at hr
      rw [hr] at hu; cases hu
    | some l =>
      obtain ⟨h1, e, r⟩ := (SolutionHeap.Rep.empty.run ops).1 l hl
      unfold SolutionHeap.run at hr
      rw [hr] at e; cases e
      exact ⟨l, r⟩
  obtain ⟨l, r⟩ := ok hr
  obtain ⟨l', r'⟩ := ok hr'
  have e : forEach ops' h SolutionHeap.step = .ok h' := by
    unfold SolutionHeap.run at hr hr'
    rw [forEach_append, hr] at hr'
    exact hr'
  have hat : SolutionHeap.At h a (some k) := by
    rcases r.deref k with ⟨⟨u, h1⟩, _⟩ | ⟨b, L, h1, h2, _⟩
    · rw [ha] at h1; cases h1
    · rw [ha] at h1; cases h1; exact h2
  have := r.at_run ops' e hat
  cases hh : holder h.objs.length (some k) ops' with
  | none =>
    rw [hh] at this
    simp only [SolutionHeap.At] at this
    exact ⟨.uninitialised, by simp [SolutionHeap.readReference, rdM, this]⟩
  | some j =>
    rw [hh] at this
    obtain ⟨L, h1, h2⟩ := r'.back this
    exact ⟨_, r'.view h1, by simp [SolutionHeap.readReference, rdM, h2]⟩

/-- Object 1 is a copy of object 0 and keeps its value when object 0 changes; object 2 takes
    over object 0. -/
example {R : Type} (x y : CellSetValues R) : ∃ h, SolutionHeap.run
    [.create, .assignConc 0 ⟨[65]⟩ x, .copy 0, .assignConc 0 ⟨[65]⟩ y, .move 0] = .ok h ∧
    (∃ s, h.view 1 = .ok s ∧ s.concentration ⟨[65]⟩ = x) ∧
    (∃ s, h.view 2 = .ok s ∧ s.concentration ⟨[65]⟩ = y) := by
  obtain ⟨h, e, hv⟩ := C21_last_assigned (R := R)
    [.create, .assignConc 0 ⟨[65]⟩ x, .copy 0, .assignConc 0 ⟨[65]⟩ y, .move 0] _ rfl
  obtain ⟨s, h1, _, _, h2, _⟩ := hv 1 _ rfl
  obtain ⟨s', h1', _, _, h2', _⟩ := hv 2 _ rfl
  exact ⟨h, e, ⟨s, h1, h2 _⟩, ⟨s', h1', h2' _⟩⟩

/-- A reference into object 0 shows what is assigned to object 1, which took over, and dangles when that is destroyed. -/
example {R : Type} (t : List R) :
    (∃ h : SolutionHeap R, SolutionHeap.run [.create] = .ok h ∧ h.deref 0 = .ok 0 ∧ h.objs.length = 1) ∧
    (∃ h, SolutionHeap.run [.create, .move 0, .destroy 0, .assignGlobalToF 1 t] = .ok h ∧ h.readReference 0 = .ok t) ∧
    holder (R := R) 1 (some 0) [.move 0, .destroy 0, .assignGlobalToF 1 t] = some 1 ∧
    (∃ h, SolutionHeap.run [.create, .move 0, .destroy 0, .assignGlobalToF 1 t, .destroy 1] = .ok h ∧
      h.readReference 0 = .ub .uninitialised ∧ h.live = 0) :=
  ⟨⟨_, rfl, rfl, rfl⟩, ⟨_, rfl, rfl⟩, rfl, ⟨_, rfl, rfl, rfl⟩⟩

/-! ### C52: RandomVector -/

open RandomVector

/-- Requests that stay within the contract of `std::uniform_int_distribution`. -/
def ValidRequest {R : Type} : Request R → Prop
  | .normal _ _ _ => True
  | .index _ m => 0 ≤ m

/-- The requests a program makes to object `k`. -/
def requestsTo {R : Type} (prog : List (Option (Nat × Request R))) (k : Nat) : List (Request R) :=
  prog.filterMap fun o => o.bind fun p => if p.1 = k then some p.2 else none

/-- The number of objects a program has created before each step covers the objects it uses. -/
def WellFormed {R : Type} : Nat → List (Option (Nat × Request R)) → Prop
  | _, [] => True
  | n, none :: p => WellFormed (n + 1) p
  | n, some (k, r) :: p => k < n ∧ ValidRequest r ∧ WellFormed n p

/-- An answer fits its request. -/
def Fits {R : Type} : Request R → Answer R → Prop
  | .normal n _ _, .sample x => x.length = n
  | .index n m, .indices x => x.length = n ∧ ∀ i ∈ x, 0 ≤ i ∧ i ≤ m
  | _, _ => False

theorem integerLoop_spec {R : Type} (L : RandomLib R)
    (hu : ∀ a b g, a ≤ b → a ≤ (L.uniformDraw a b g).1 ∧ (L.uniformDraw a b g).1 ≤ b)
    (a b : Int) (h : a ≤ b) (n : Nat) (g : L.Gen) :
    (integerLoop L a b g n).1.length = n ∧ ∀ i ∈ (integerLoop L a b g n).1, a ≤ i ∧ i ≤ b := by
  induction n generalizing g with
  | zero => simp [integerLoop]
  | succ n ih =>
    obtain ⟨h1, h2⟩ := ih (L.uniformDraw a b g).2
    refine ⟨by simp [integerLoop, h1], ?_⟩
    intro i hi
    simp only [integerLoop, List.mem_cons] at hi
    rcases hi with rfl | hi
    · exact hu a b g h
    · exact h2 i hi

theorem normalLoop_length {R : Type} (L : RandomLib R) (n : Nat) (d : L.NState) (g : L.Gen) :
    (normalLoop L d g n).1.length = n := by
  induction n generalizing d g with
  | zero => rfl
  | succ n ih => simp [normalLoop, ih]

theorem serve_ok {R : Type} (L : RandomLib R) (g : L.Gen) (r : Request R) (h : ValidRequest r) :
    ∃ a, serve L g r = .ok a := by
  cases r with
  | normal n m s => exact ⟨_, rfl⟩
  | index n m =>
    have : ¬ m < 0 := not_lt.mpr h
    simp [serve, index, this]

/-- **C52** Objects are independent and reproducible: whatever requests to however many objects
    are interleaved, the answers of each object are those a single fresh object gives to the
    same requests; so two objects asked the same things answer the same. -/
theorem C52_reproducible {R : Type} (L : RandomLib R) (prog : List (Option (Nat × Request R)))
    (hp : WellFormed 0 prog) :
    ∃ gens out, world L prog = .ok (gens, out) ∧ ∀ k < gens.length, ∃ g,
      session L (requestsTo prog k) = .ok ((out.filter fun a => a.1 == k).map Prod.snd, g) := by
  -- strengthened: any state whose objects have answered as single objects would
  have gen : ∀ (prog : List (Option (Nat × Request R))) (gens : List L.Gen) (out : List (Nat × Answer R))
      (past : Nat → List (Request R)),
      WellFormed gens.length prog →
      (∀ k, gens.length ≤ k → past k = []) → (∀ a ∈ out, a.1 < gens.length) →
      (∀ (k : Nat) (g : L.Gen), gens[k]? = some g →
        session L (past k) = .ok ((out.filter fun a => a.1 == k).map Prod.snd, g)) →
      ∃ gens' out', forEach prog (gens, out) (fun s op =>
          match op with
          | none => .ok (s.1 ++ [L.init], s.2)
          | some (k, r) => do
            let g ← rd s.1 k
            let a ← serve L g r
            let gens ← wr s.1 k a.2
            pure (gens, s.2 ++ [(k, a.1)])) = .ok (gens', out') ∧
        ∀ (k : Nat) (g : L.Gen), gens'[k]? = some g →
          session L (past k ++ requestsTo prog k) = .ok ((out'.filter fun a => a.1 == k).map Prod.snd, g) := by
    intro prog
    induction prog with
    | nil =>
      intro gens out past _ _ _ hs
      exact ⟨gens, out, rfl, fun k g hk => by simpa [requestsTo] using hs k g hk⟩
    | cons op prog ih =>
      intro gens out past hw h0 hout hs
      cases op with
      | none =>
        have hw' : WellFormed (gens.length + 1) prog := hw
        obtain ⟨gens', out', e, hr⟩ := ih (gens ++ [L.init]) out past (by simpa using hw')
          (fun k hk => h0 k (by simp at hk; omega)) (fun a ha => by have := hout a ha; simp; omega)
          (by
            intro k g hk
            rw [List.getElem?_append] at hk
            split at hk
            · exact hs k g hk
            · rename_i hge
              have h0' : k - gens.length = 0 := by
                by_contra hne
                rw [List.getElem?_eq_none (by simp; omega)] at hk; cases hk
              rw [h0'] at hk; simp at hk; subst hk
              rw [h0 k (by omega)]
              have : out.filter (fun a => a.1 == k) = [] := by
                rw [List.filter_eq_nil_iff]
                intro a ha; have := hout a ha; simp; omega
              rw [this]; rfl)
        exact ⟨gens', out', e, hr⟩
      | some p =>
        obtain ⟨k0, r⟩ := p
        obtain ⟨hk0, hv, hw'⟩ := (hw : k0 < gens.length ∧ ValidRequest r ∧ WellFormed gens.length prog)
        obtain ⟨a, ha⟩ := serve_ok L gens[k0] r hv
        let past' : Nat → List (Request R) := fun k => if k = k0 then past k ++ [r] else past k
        obtain ⟨gens', out', e, hr⟩ := ih (gens.set k0 a.2) (out ++ [(k0, a.1)]) past'
          (by simpa using hw')
          (fun k hk => by
            simp only [List.length_set] at hk
            have : k ≠ k0 := by omega
            simp [past', this, h0 k hk])
          (fun b hb => by
            simp only [List.length_set]
            rcases List.mem_append.mp hb with hb | hb
            · exact hout b hb
            · simp only [List.mem_singleton] at hb; subst hb; exact hk0)
          (by
            intro k g hk
            rw [List.getElem?_set] at hk
            by_cases hkk : k0 = k
            · subst hkk
              simp [hk0] at hk; subst hk
              have hs0 := hs k0 _ (List.getElem?_eq_getElem hk0)
              unfold session at hs0 ⊢
              simp only [past', if_true]
              rw [forEach_append, hs0]
              simp [ha]
            · simp only [hkk, if_false] at hk
              have hne : k ≠ k0 := fun e => hkk e.symm
              simp only [past', hne, if_false]
              rw [hs k g hk]
              simp [List.filter_append, hkk])
        refine ⟨gens', out', ?_, ?_⟩
        · rw [forEach_cons]
          simp only [Res.bind_eq, rd_ok hk0, Res.ok_bind, ha, wr_ok hk0, Res.pure_eq]
          exact e
        · intro k g hk
          have := hr k g hk
          by_cases hkk : k = k0
          · subst hkk
            simpa [past', requestsTo] using this
          · have hne : ¬ k0 = k := fun e => hkk e.symm
            simpa [past', requestsTo, hkk, hne] using this
  obtain ⟨gens, out, e, hr⟩ := gen prog [] [] (fun _ => []) (by simpa using hp) (by simp) (by simp) (by simp)
  refine ⟨gens, out, e, fun k hk => ⟨gens[k], ?_⟩⟩
  simpa using hr k _ (List.getElem?_eq_getElem hk)

/-- **C52** Every answer has the requested length, and indices stay in `[0, m]`, given the
    contract of the standard library's uniform distribution. -/
theorem C52_answers_fit {R : Type} (L : RandomLib R)
    (hu : ∀ a b g, a ≤ b → a ≤ (L.uniformDraw a b g).1 ∧ (L.uniformDraw a b g).1 ≤ b)
    (reqs : List (Request R)) (hv : ∀ r ∈ reqs, ValidRequest r) :
    ∃ out g, session L reqs = .ok (out, g) ∧ List.Forall₂ Fits reqs out := by
  induction reqs using List.reverseRecOn with
  | nil => exact ⟨[], _, rfl, .nil⟩
  | append_singleton reqs r ih =>
    obtain ⟨out, g, e, hf⟩ := ih (fun r hr => hv r (by simp [hr]))
    have hr := hv r (by simp)
    obtain ⟨a, ha⟩ := serve_ok L g r hr
    refine ⟨out ++ [a.1], a.2, ?_, ?_⟩
    · unfold session at e ⊢
      rw [forEach_append, e]
      simp [ha]
    · refine List.rel_append hf (.cons ?_ .nil)
      cases r with
      | normal n m s =>
        simp only [serve, Res.ok.injEq] at ha; subst ha
        exact normalLoop_length L _ _ _
      | index n m =>
        have h0 : ¬ m < 0 := not_lt.mpr hr
        simp only [serve, index, h0, if_false, Res.ok_bind, Res.ok.injEq] at ha; subst ha
        exact integerLoop_spec L hu 0 m hr n g

/-- The contract of `std::normal_distribution`: an object with mean `m` and standard deviation `s` gives `m + s * z` when
    one with mean 0 and standard deviation 1 that has given as many numbers gives `z`, and uses the generator likewise. -/
def ScalesNormal {R : Type} [Zero R] [One R] [Add R] [Mul R] (L : RandomLib R) : Prop :=
  ∃ Same : R → R → L.NState → L.NState → Prop, (∀ m s, Same m s (L.normalNew m s) (L.normalNew 0 1)) ∧
    ∀ m s d d', Same m s d d' → ∀ g, (L.normalDraw d g).1 = m + s * (L.normalDraw d' g).1 ∧
      Same m s (L.normalDraw d g).2.1 (L.normalDraw d' g).2.1 ∧ (L.normalDraw d g).2.2 = (L.normalDraw d' g).2.2

theorem session_rest {R : Type} (L : RandomLib R) : ∀ (reqs : List (Request R)), (∀ r ∈ reqs, ValidRequest r) → ∀ g,
    ∃ later g', later.length = reqs.length ∧
      ∀ out, forEach reqs (out, g) (fun s r => (serve L s.2 r).bind fun a => .ok (s.1 ++ [a.1], a.2)) = .ok (out ++ later, g') := by
  intro reqs
  induction reqs with
  | nil => intro _ g; exact ⟨[], g, rfl, fun out => by simp⟩
  | cons r reqs ih =>
    intro hv g
    obtain ⟨a, hra⟩ := serve_ok L g r (hv r (by simp))
    obtain ⟨later, g', h1, h2⟩ := ih (fun r hr => hv r (by simp [hr])) a.2
    refine ⟨a.1 :: later, g', by simp [h1], fun out => ?_⟩
    rw [forEach_cons]
    simp only [hra, Res.ok_bind]
    rw [h2]; simp

/-- **C52** Mean and standard deviation shift and scale the sample: whatever an object has been asked before, a sample with
    mean `m` and standard deviation `s` is `m + s * z` for the numbers `z` of the sample with mean 0 and standard deviation 1
    that it would have given instead; and what it answers later is the same. -/
theorem C52_scaled {R : Type} [Zero R] [One R] [Add R] [Mul R] (L : RandomLib R) (hL : ScalesNormal L)
    (before after : List (Request R)) (hb : ∀ r ∈ before, ValidRequest r) (ha : ∀ r ∈ after, ValidRequest r) (n : Nat) (m s : R) :
    ∃ past later z g, past.length = before.length ∧ later.length = after.length ∧ z.length = n ∧
      session L (before ++ .normal n m s :: after) = .ok (past ++ .sample (z.map fun x => m + s * x) :: later, g) ∧
      session L (before ++ .normal n 0 1 :: after) = .ok (past ++ .sample z :: later, g) := by
  obtain ⟨Same, hnew, hdraw⟩ := hL
  have hloop : ∀ n d d' g, Same m s d d' → (normalLoop L d g n).1 = (normalLoop L d' g n).1.map (fun x => m + s * x) ∧
      (normalLoop L d g n).2 = (normalLoop L d' g n).2 := by
    intro n
    induction n with
    | zero => intro d d' g _; exact ⟨rfl, rfl⟩
    | succ n ih =>
      intro d d' g h
      obtain ⟨h1, h2, h3⟩ := hdraw m s d d' h g
      unfold normalLoop
      obtain ⟨i1, i2⟩ := ih _ _ (L.normalDraw d g).2.2 h2
      simp only [List.map_cons]
      rw [h1, i1, i2, h3]
      exact ⟨rfl, rfl⟩
  obtain ⟨past, g, h1, h2⟩ := session_rest L before hb L.init
  obtain ⟨e1, e2⟩ := hloop n _ _ g (hnew m s)
  obtain ⟨later, g', h3, h4⟩ := session_rest L after ha (normal L g n 0 1).2
  refine ⟨past, later, (normal L g n 0 1).1, g', h1, h3, normalLoop_length L _ _ _, ?_, ?_⟩
  · unfold session
    rw [forEach_append, h2 [], Res.ok_bind, forEach_cons]
    rw [show serve L ([] ++ past, g).2 (.normal n m s) = .ok (.sample (normal L g n m s).1, (normal L g n m s).2) from rfl]
    simp only [Res.ok_bind]
    have : (normal L g n m s).2 = (normal L g n 0 1).2 := e2
    rw [this, h4, List.append_assoc]
    have : (normal L g n m s).1 = (normal L g n 0 1).1.map fun x => m + s * x := e1
    rw [this]
    rfl
  · unfold session
    rw [forEach_append, h2 [], Res.ok_bind, forEach_cons]
    rw [show serve L ([] ++ past, g).2 (.normal n 0 1) = .ok (.sample (normal L g n 0 1).1, (normal L g n 0 1).2) from rfl]
    simp only [Res.ok_bind]
    rw [h4, List.append_assoc]
    rfl

/-- A (poor) random library that meets the hypotheses. -/
def counterLib : RandomLib Nat :=
  { Gen := Nat, init := 7, NState := Unit, normalNew := fun _ _ => ()
    normalDraw := fun _ g => (g, (), g + 1), uniformDraw := fun a b g => (if g % 2 = 0 then a else b, g + 1) }

example : ∃ gens out, world counterLib [none, none, some (0, .index 2 5), some (1, .normal 1 0 1),
    some (1, .index 1 3), some (0, .normal 3 0 1)] = .ok (gens, out) ∧ ∀ k < gens.length, ∃ g,
      session counterLib (requestsTo [none, none, some (0, .index 2 5), some (1, .normal 1 0 1),
        some (1, .index 1 3), some (0, .normal 3 0 1)] k)
        = .ok ((out.filter fun a => a.1 == k).map Prod.snd, g) :=
  C52_reproducible counterLib _ (by simp [WellFormed, ValidRequest])

example : ∃ out g, session counterLib [.index 2 5, .normal 1 0 1] = .ok (out, g) ∧
    List.Forall₂ Fits [.index 2 5, .normal 1 0 1] out :=
  C52_answers_fit counterLib
    (by
      intro a b (g : Nat) hab
      show a ≤ (if g % 2 = 0 then a else b) ∧ (if g % 2 = 0 then a else b) ≤ b
      split <;> omega) _
    (by simp [ValidRequest])

/-- A library whose normal distribution scales: the numbers 7, 8, 9, … as standard ones. -/
def scalingLib : RandomLib Int :=
  { Gen := Nat, init := 7, NState := Int × Int, normalNew := fun m s => (m, s)
    normalDraw := fun d g => (d.1 + d.2 * g, d, g + 1), uniformDraw := fun a _ g => (a, g + 1) }

example : ∃ past later z g, past.length = 1 ∧ later.length = 1 ∧ z.length = 3 ∧
    session scalingLib ([.index 2 5] ++ .normal 3 10 2 :: [.normal 1 0 1])
      = .ok (past ++ .sample (z.map fun x => 10 + 2 * x) :: later, g) ∧
    session scalingLib ([.index 2 5] ++ .normal 3 0 1 :: [.normal 1 0 1]) = .ok (past ++ .sample z :: later, g) :=
  C52_scaled scalingLib ⟨fun m s d d' => d = (m, s) ∧ d' = (0, 1), fun _ _ => ⟨rfl, rfl⟩, by
    rintro m s _ _ ⟨rfl, rfl⟩ g
    refine ⟨?_, ⟨rfl, rfl⟩, rfl⟩
    simp [scalingLib]⟩ [.index 2 5] [.normal 1 0 1] (by simp [ValidRequest]) (by simp [ValidRequest]) 3 10 2

/-- What a new distribution object is after it has given `n` numbers, and the generator.  (Some implementations keep every other
    number for the next call.) -/
def drawn {R : Type} (L : RandomLib R) (m s : R) (g : L.Gen) : Nat → L.NState × L.Gen
  | 0 => (L.normalNew m s, g)
  | n + 1 => (L.normalDraw (drawn L m s g n).1 (drawn L m s g n).2).2

/-- **C52** The numbers of one request follow those of the request before in the sequence of the generator: asking for `k`
    and then for `l` numbers gives what asking for `k + l` numbers at once would have given, whatever the object has been asked
    before, and it makes no difference for what it answers later. -/
theorem C52_consecutive {R : Type} (L : RandomLib R) (before after : List (Request R)) (hb : ∀ r ∈ before, ValidRequest r)
    (ha : ∀ r ∈ after, ValidRequest r) (k l : Nat) (max : Int) (hm : 0 ≤ max) :
    ∃ past later x y g, past.length = before.length ∧ later.length = after.length ∧ x.length = k ∧ y.length = l ∧
      session L (before ++ .index k max :: .index l max :: after) = .ok (past ++ .indices x :: .indices y :: later, g) ∧
      session L (before ++ .index (k + l) max :: after) = .ok (past ++ .indices (x ++ y) :: later, g) := by
  have hlen : ∀ n g, (integerLoop L 0 max g n).1.length = n := by
    intro n
    induction n with
    | zero => intro g; rfl
    | succ n ih => intro g; simp [integerLoop, ih]
  have hloop : ∀ k g, integerLoop L 0 max g (k + l) = ((integerLoop L 0 max g k).1 ++ (integerLoop L 0 max (integerLoop L 0 max g k).2 l).1,
      (integerLoop L 0 max (integerLoop L 0 max g k).2 l).2) := by
    intro k
    induction k with
    | zero => intro g; simp [integerLoop]
    | succ k ih =>
      intro g
      rw [Nat.succ_add]
      simp only [integerLoop]
      rw [ih]
      simp
  have hi : ∀ g n, serve L g (.index n max) = .ok (.indices (integerLoop L 0 max g n).1, (integerLoop L 0 max g n).2) := by
    intro g n
    have : ¬ max < 0 := not_lt.mpr hm
    simp [serve, index, this]
  obtain ⟨past, g, h1, h2⟩ := session_rest L before hb L.init
  obtain ⟨later, g', h3, h4⟩ := session_rest L after ha (integerLoop L 0 max g (k + l)).2
  refine ⟨past, later, _, _, g', h1, h3, hlen k g, hlen l (integerLoop L 0 max g k).2, ?_, ?_⟩
  · unfold session
    rw [forEach_append, h2 [], Res.ok_bind, forEach_cons]
    simp only [hi, Res.ok_bind]
    rw [forEach_cons]
    simp only [hi, Res.ok_bind]
    rw [hloop] at h4
    rw [h4]
    simp
  · unfold session
    rw [forEach_append, h2 [], Res.ok_bind, forEach_cons]
    simp only [hi, Res.ok_bind]
    rw [h4, hloop]
    simp

/-- **C52** The same for samples of the normal distribution, if a distribution object that has given `k` numbers goes on like a
    new one. -/
theorem C52_consecutive_normal {R : Type} (L : RandomLib R) (before after : List (Request R)) (hb : ∀ r ∈ before, ValidRequest r)
    (ha : ∀ r ∈ after, ValidRequest r) (k l : Nat) (m s : R)
    (hk : ∀ g g', L.normalDraw (drawn L m s g k).1 g' = L.normalDraw (L.normalNew m s) g') :
    ∃ past later x y g, past.length = before.length ∧ later.length = after.length ∧ x.length = k ∧ y.length = l ∧
      session L (before ++ .normal k m s :: .normal l m s :: after) = .ok (past ++ .sample x :: .sample y :: later, g) ∧
      session L (before ++ .normal (k + l) m s :: after) = .ok (past ++ .sample (x ++ y) :: later, g) := by
  -- the state after `k` numbers, from any distribution object
  let go : Nat → L.NState → L.Gen → L.NState × L.Gen := fun n d g => (fun p => (L.normalDraw p.1 p.2).2)^[n] (d, g)
  have hgo : ∀ n g, go n (L.normalNew m s) g = drawn L m s g n := by
    intro n g
    induction n with
    | zero => rfl
    | succ n ih =>
      show (fun p => (L.normalDraw p.1 p.2).2)^[n + 1] (L.normalNew m s, g) = _
      rw [Function.iterate_succ_apply']
      show (L.normalDraw (go n (L.normalNew m s) g).1 (go n (L.normalNew m s) g).2).2 = _
      rw [ih]; rfl
  have hloop : ∀ k d g, normalLoop L d g (k + l) = ((normalLoop L d g k).1 ++ (normalLoop L (go k d g).1 (go k d g).2 l).1,
      (normalLoop L (go k d g).1 (go k d g).2 l).2) ∧ (normalLoop L d g k).2 = (go k d g).2 := by
    intro k
    induction k with
    | zero => intro d g; simp [normalLoop, go]
    | succ k ih =>
      intro d g
      rw [Nat.succ_add]
      simp only [normalLoop]
      obtain ⟨i1, i2⟩ := ih (L.normalDraw d g).2.1 (L.normalDraw d g).2.2
      rw [i1, i2]
      have : go (k + 1) d g = go k (L.normalDraw d g).2.1 (L.normalDraw d g).2.2 := Function.iterate_succ_apply ..
      rw [this]
      simp
  have hnew : ∀ g g', normalLoop L (drawn L m s g k).1 g' l = normalLoop L (L.normalNew m s) g' l := by
    intro g g'
    cases l with
    | zero => rfl
    | succ l =>
      unfold normalLoop
      rw [hk]
  obtain ⟨past, g, h1, h2⟩ := session_rest L before hb L.init
  obtain ⟨later, g', h3, h4⟩ := session_rest L after ha (normal L g (k + l) m s).2
  obtain ⟨e1, e2⟩ := hloop k (L.normalNew m s) g
  rw [hgo] at e1 e2
  have e3 : normal L g (k + l) m s = ((normal L g k m s).1 ++ (normal L (normal L g k m s).2 l m s).1,
      (normal L (normal L g k m s).2 l m s).2) := by
    unfold normal
    rw [e1, e2, hnew]
  have hi : ∀ g n, serve L g (.normal n m s) = .ok (.sample (normal L g n m s).1, (normal L g n m s).2) := fun _ _ => rfl
  refine ⟨past, later, (normal L g k m s).1, (normal L (normal L g k m s).2 l m s).1, g', h1, h3, normalLoop_length L _ _ _,
    normalLoop_length L _ _ _, ?_, ?_⟩
  · unfold session
    rw [forEach_append, h2 [], Res.ok_bind, forEach_cons]
    simp only [hi, Res.ok_bind]
    rw [forEach_cons]
    simp only [hi, Res.ok_bind]
    rw [e3] at h4
    rw [h4]
    simp
  · unfold session
    rw [forEach_append, h2 [], Res.ok_bind, forEach_cons]
    simp only [hi, Res.ok_bind]
    rw [h4, e3]
    simp

example : ∃ past later x y g, past.length = 1 ∧ later.length = 1 ∧ x.length = 2 ∧ y.length = 3 ∧
    session scalingLib ([.normal 1 0 1] ++ .index 2 5 :: .index 3 5 :: [.index 1 1])
      = .ok (past ++ .indices x :: .indices y :: later, g) ∧
    session scalingLib ([.normal 1 0 1] ++ .index (2 + 3) 5 :: [.index 1 1]) = .ok (past ++ .indices (x ++ y) :: later, g) :=
  C52_consecutive scalingLib [.normal 1 0 1] [.index 1 1] (by simp [ValidRequest]) (by simp [ValidRequest]) 2 3 5 (by norm_num)

/-- A library that makes two numbers at a time and keeps the second. -/
def pairLib : RandomLib Int :=
  { Gen := Nat, init := 7, NState := Bool × Int, normalNew := fun _ _ => (false, 0)
    normalDraw := fun d g => if d.1 then (d.2, (false, d.2), g) else (g, (true, g + 1), g + 2), uniformDraw := fun a _ g => (a, g + 1) }

example : ∃ past later x y g, past.length = 1 ∧ later.length = 1 ∧ x.length = 2 ∧ y.length = 3 ∧
    session pairLib ([.index 2 5] ++ .normal 2 0 1 :: .normal 3 0 1 :: [.index 1 1])
      = .ok (past ++ .sample x :: .sample y :: later, g) ∧
    session pairLib ([.index 2 5] ++ .normal (2 + 3) 0 1 :: [.index 1 1]) = .ok (past ++ .sample (x ++ y) :: later, g) :=
  C52_consecutive_normal pairLib [.index 2 5] [.index 1 1] (by simp [ValidRequest]) (by simp [ValidRequest]) 2 3 0 1
    (fun _ _ => rfl)

end Verif.Props
