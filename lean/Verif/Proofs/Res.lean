/- Lemmas about outcomes, memory access and loops. -/
import Verif.Model.Res
import Mathlib.Tactic.Common

namespace Verif

@[simp] theorem Res.bind_eq {α β : Type} (x : Res α) (f : α → Res β) : (x >>= f) = x.bind f := rfl
@[simp] theorem Res.pure_eq {α : Type} (a : α) : (pure a : Res α) = .ok a := rfl
@[simp] theorem Res.ok_bind {α β : Type} (a : α) (f : α → Res β) : (Res.ok a).bind f = f a := rfl
@[simp] theorem Res.throw_bind {α β : Type} (e) (f : α → Res β) : (Res.throw e).bind f = .throw e := rfl
@[simp] theorem Res.ub_bind {α β : Type} (e) (f : α → Res β) : (Res.ub e).bind f = .ub e := rfl
@[simp] theorem Res.diverge_bind {α β : Type} (f : α → Res β) : (Res.diverge).bind f = .diverge := rfl

theorem Res.bind_assoc {α β γ : Type} (x : Res α) (f : α → Res β) (g : β → Res γ) :
    (x.bind f).bind g = x.bind fun a => (f a).bind g := by
  cases x <;> rfl

theorem Res.bind_ok_iff {α β : Type} {x : Res α} {f : α → Res β} {b : β} :
    x.bind f = .ok b ↔ ∃ a, x = .ok a ∧ f a = .ok b := by
  cases x <;> simp

/-- `Res.ok_iff`-style inversion of an `ok` outcome through `bind`. -/
theorem Res.exists_bind {α β : Type} {x : Res α} {f : α → Res β} {Q : β → Prop}
    (h : ∃ a, x = .ok a ∧ ∃ b, f a = .ok b ∧ Q b) : ∃ b, x.bind f = .ok b ∧ Q b := by
  obtain ⟨a, rfl, h⟩ := h
  exact h

theorem rd_ok {α : Type} {v : List α} {i : Nat} (h : i < v.length) : rd v i = .ok v[i] := by
  simp [rd, h]

theorem rd_of_getElem? {α : Type} {v : List α} {i : Nat} {x : α} (h : v[i]? = some x) :
    rd v i = .ok x := by
  simp [rd, h]

theorem rd_eq_ok_iff {α : Type} {v : List α} {i : Nat} {x : α} :
    rd v i = .ok x ↔ v[i]? = some x := by
  unfold rd; split <;> simp_all

theorem rd_oob {α : Type} {v : List α} {i : Nat} (h : v.length ≤ i) :
    rd v i = .ub .outOfBounds := by
  simp [rd, h]

theorem wr_ok {α : Type} {v : List α} {i : Nat} {x : α} (h : i < v.length) :
    wr v i x = .ok (v.set i x) := by
  simp [wr, h]

theorem wr_oob {α : Type} {v : List α} {i : Nat} {x : α} (h : v.length ≤ i) :
    wr v i x = .ub .outOfBounds := by
  simp [wr, Nat.not_lt.mpr h]

theorem wr_eq_ok_iff {α : Type} {v w : List α} {i : Nat} {x : α} :
    wr v i x = .ok w ↔ i < v.length ∧ w = v.set i x := by
  unfold wr; by_cases h : i < v.length <;> simp [h, eq_comm]

theorem rdM_of_getElem? {α : Type} {v : Mem α} {i : Nat} {x : α} (h : v[i]? = some (some x)) :
    rdM v i = .ok x := by
  simp [rdM, h]

theorem wrM_ok {α : Type} {v : Mem α} {i : Nat} {x : α} (h : i < v.length) :
    wrM v i x = .ok (v.set i (some x)) := by
  simp [wrM, wr, h]

theorem rdM_eq_ok_iff {α : Type} {v : Mem α} {i : Nat} {x : α} :
    rdM v i = .ok x ↔ v[i]? = some (some x) := by
  unfold rdM; split <;> simp_all

@[simp] theorem forEach_nil {α σ : Type} (s : σ) (f : σ → α → Res σ) :
    forEach [] s f = .ok s := rfl

@[simp] theorem forEach_cons {α σ : Type} (x : α) (xs : List α) (s : σ) (f : σ → α → Res σ) :
    forEach (x :: xs) s f = (f s x).bind fun s' => forEach xs s' f := rfl

theorem forEach_append {α σ : Type} (xs ys : List α) (s : σ) (f : σ → α → Res σ) :
    forEach (xs ++ ys) s f = (forEach xs s f).bind fun s' => forEach ys s' f := by
  induction xs generalizing s with
  | nil => rfl
  | cons x xs ih =>
    simp only [List.cons_append, forEach_cons, Res.bind_assoc]
    congr 1; funext s'; exact ih s'

/-- Loop rule: an invariant over the processed prefix. -/
theorem forEach_inv {α σ : Type} {xs : List α} {s : σ} {f : σ → α → Res σ}
    (P : List α → σ → Prop) (h0 : P [] s)
    (hstep : ∀ pre x post s, xs = pre ++ x :: post → P pre s →
      ∃ s', f s x = .ok s' ∧ P (pre ++ [x]) s') :
    ∃ s', forEach xs s f = .ok s' ∧ P xs s' := by
  suffices H : ∀ post pre s, xs = pre ++ post → P pre s →
      ∃ s', forEach post s f = .ok s' ∧ P xs s' from H xs [] s rfl h0
  intro post
  induction post with
  | nil => intro pre s hx hp; exact ⟨s, rfl, by simpa [hx] using hp⟩
  | cons x post ih =>
    intro pre s hx hp
    obtain ⟨s', hs', hp'⟩ := hstep pre x post s hx hp
    obtain ⟨s'', hs'', hp''⟩ := ih (pre ++ [x]) s' (by simp [hx]) hp'
    exact ⟨s'', by simp [hs', hs''], hp''⟩

/-- Loop rule for `for (i = 0; i < n; ++i)`. -/
theorem forEach_range_inv {σ : Type} {n : Nat} {s : σ} {f : σ → Nat → Res σ}
    (P : Nat → σ → Prop) (h0 : P 0 s)
    (hstep : ∀ i s, i < n → P i s → ∃ s', f s i = .ok s' ∧ P (i + 1) s') :
    ∃ s', forEach (List.range n) s f = .ok s' ∧ P n s' := by
  have := forEach_inv (xs := List.range n) (s := s) (f := f)
    (fun pre s => P pre.length s) (by simpa) (by
      intro pre x post s hx hp
      have hlt : pre.length < n := by
        have := congrArg List.length hx; simp at this; omega
      have hxv : x = pre.length := by
        have h1 : (List.range n)[pre.length]? = some x := by rw [hx]; simp
        rw [List.getElem?_range hlt] at h1; simpa using h1.symm
      subst hxv
      simpa using hstep _ _ hlt hp)
  simpa using this

theorem forEach_congr {α σ : Type} {xs : List α} {s : σ} {f g : σ → α → Res σ}
    (h : ∀ s, ∀ x ∈ xs, f s x = g s x) : forEach xs s f = forEach xs s g := by
  induction xs generalizing s with
  | nil => rfl
  | cons x xs ih =>
    simp only [forEach_cons]
    rw [h s x (by simp)]
    congr 1; funext s'
    exact ih fun s y hy => h s y (by simp [hy])

/-- A loop whose body always succeeds is a fold. -/
theorem forEach_eq_foldl {α σ : Type} {xs : List α} {s : σ} {f : σ → α → Res σ} (g : σ → α → σ)
    (h : ∀ s, ∀ x ∈ xs, f s x = .ok (g s x)) : forEach xs s f = .ok (xs.foldl g s) := by
  induction xs generalizing s with
  | nil => rfl
  | cons x xs ih =>
    simp only [forEach_cons, h s x (by simp), Res.ok_bind, List.foldl_cons]
    exact ih fun s y hy => h s y (by simp [hy])

/-- Outcomes other than a normal return or undefined behaviour are excluded. -/
def Res.OkOrUb {α : Type} (x : Res α) : Prop := (∃ a, x = .ok a) ∨ ∃ u, x = .ub u

theorem Res.OkOrUb.bind {α β : Type} {x : Res α} {f : α → Res β} (h : x.OkOrUb)
    (hf : ∀ a, x = .ok a → (f a).OkOrUb) : (x.bind f).OkOrUb := by
  rcases h with ⟨a, rfl⟩ | ⟨u, rfl⟩
  · exact hf a rfl
  · exact Or.inr ⟨u, rfl⟩

theorem Res.OkOrUb.ok {α : Type} (a : α) : (Res.ok a).OkOrUb := Or.inl ⟨a, rfl⟩
theorem Res.OkOrUb.ub {α : Type} (u : UB) : (Res.ub u : Res α).OkOrUb := Or.inr ⟨u, rfl⟩

theorem rd_okOrUb {α : Type} (v : List α) (i : Nat) : (rd v i).OkOrUb := by
  unfold rd; split <;> first | exact .ok _ | exact .ub _

theorem wr_okOrUb {α : Type} (v : List α) (i : Nat) (x : α) : (wr v i x).OkOrUb := by
  unfold wr; split <;> first | exact .ok _ | exact .ub _

theorem assertThat_okOrUb (b : Bool) : (assertThat b).OkOrUb := by
  unfold assertThat; split <;> first | exact .ok _ | exact .ub _

theorem forEach_okOrUb {α σ : Type} {f : σ → α → Res σ} {xs : List α} {s : σ}
    (h : ∀ s, ∀ x ∈ xs, (f s x).OkOrUb) : (forEach xs s f).OkOrUb := by
  induction xs generalizing s with
  | nil => exact .ok _
  | cons x xs ih =>
    rw [forEach_cons]
    exact (h s x (by simp)).bind fun a _ => ih fun s y hy => h s y (by simp [hy])

/-- What a completed loop says about its iterations: the invariant held at the end,
    and every element was processed successfully in a state satisfying it. -/
theorem forEach_ok {α σ : Type} {f : σ → α → Res σ} {xs : List α} {s s' : σ} (P : σ → Prop)
    (h0 : P s) (hstep : ∀ s s', ∀ x ∈ xs, P s → f s x = .ok s' → P s')
    (h : forEach xs s f = .ok s') : P s' ∧ ∀ x ∈ xs, ∃ t t', P t ∧ f t x = .ok t' := by
  induction xs generalizing s with
  | nil =>
    simp only [forEach_nil, Res.ok.injEq] at h; subst h
    exact ⟨h0, by simp⟩
  | cons x xs ih =>
    rw [forEach_cons, Res.bind_ok_iff] at h
    obtain ⟨t, ht, h⟩ := h
    have hp := hstep s t x (by simp) h0 ht
    obtain ⟨a, b⟩ := ih hp (fun s s' y hy => hstep s s' y (by simp [hy])) h
    refine ⟨a, ?_⟩
    intro y hy
    rcases List.mem_cons.mp hy with rfl | hy
    · exact ⟨s, t, h0, ht⟩
    · exact b y hy

@[simp] theorem assertThat_true : assertThat true = .ok () := rfl

theorem assertThat_ok {b : Bool} (h : b = true) : assertThat b = .ok () := by simp [h]

theorem sizeOfInt_nonneg {i : Int} (h0 : 0 ≤ i) (h1 : i ≤ INT_MAX) : sizeOfInt i = i.toNat := by
  unfold sizeOfInt; unfold INT_MAX at h1
  rw [Int.emod_eq_of_lt h0 (by omega)]

end Verif
