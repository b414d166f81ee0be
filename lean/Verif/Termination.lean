import Verif.Conc
import Mathlib.Logic.Hydra
/-
Every schedule of the goroutine language is finite: each step replaces a goroutine's program by
proper subprograms of it.
-/
namespace Speed

/-- Immediate subprograms. -/
inductive Proc.Sub : Proc → Proc → Prop where
  | store {a b k} : Sub k (.store a b k)
  | recv {c k v} : Sub (k v) (.recv c k)
  | send {c v k} : Sub k (.send c v k)
  | forkL {p k} : Sub p (.fork p k)
  | forkR {p k} : Sub k (.fork p k)
  | wgNew {n k v} : Sub (k v) (.wgNew n k)
  | wgDone {w k} : Sub k (.wgDone w k)
  | wgWait {w k} : Sub k (.wgWait w k)
  | setCell {c v k} : Sub k (.setCell c v k)
  | getCell {c k v} : Sub (k v) (.getCell c k)

theorem Proc.sub_acc (p : Proc) : Acc Proc.Sub p := by
  induction p with
  | done => exact ⟨_, fun _ h => by cases h⟩
  | panic => exact ⟨_, fun _ h => by cases h⟩
  | store a b k ih => exact ⟨_, fun _ h => by cases h; exact ih⟩
  | recv c k ih => exact ⟨_, fun _ h => by cases h; exact ih _⟩
  | send c v k ih => exact ⟨_, fun _ h => by cases h; exact ih⟩
  | fork p k ihp ihk =>
    refine ⟨_, fun _ h => ?_⟩
    cases h
    · exact ihp
    · exact ihk
  | wgNew n k ih => exact ⟨_, fun _ h => by cases h; exact ih _⟩
  | wgDone w k ih => exact ⟨_, fun _ h => by cases h; exact ih⟩
  | wgWait w k ih => exact ⟨_, fun _ h => by cases h; exact ih⟩
  | setCell c v k ih => exact ⟨_, fun _ h => by cases h; exact ih⟩
  | getCell c k ih => exact ⟨_, fun _ h => by cases h; exact ih _⟩

theorem Proc.sub_wf : WellFounded Proc.Sub := ⟨Proc.sub_acc⟩

theorem coe_set {l : List Proc} {i : Nat} {p q : Proc} (h : l[i]? = some p) :
    ((l.set i q : List Proc) : Multiset Proc) + {p} = (l : Multiset Proc) + {q} := by
  induction l generalizing i with
  | nil => simp at h
  | cons x l ih =>
    cases i with
    | zero =>
      simp at h; subst h
      simp only [List.set_cons_zero]
      rw [← Multiset.cons_coe, ← Multiset.cons_coe]
      rw [← Multiset.singleton_add, ← Multiset.singleton_add]
      rw [add_right_comm, add_comm ({q} : Multiset Proc) {x}, add_right_comm]
    | succ i =>
      simp at h
      have := ih h
      simp only [List.set_cons_succ]
      rw [← Multiset.cons_coe, ← Multiset.cons_coe, Multiset.cons_add, Multiset.cons_add, this]

theorem cut_set {l : List Proc} {i : Nat} {p q : Proc} (h : l[i]? = some p) (hs : q.Sub p) :
    Relation.CutExpand Proc.Sub ((l.set i q : List Proc) : Multiset Proc) (l : Multiset Proc) :=
  ⟨{q}, p, by simpa using hs, coe_set h⟩

/-- Termination measure: first the pool of programs, then the crash flag. -/
def Below (t s : St) : Prop :=
  Relation.TransGen (Relation.CutExpand Proc.Sub) (t.thr : Multiset Proc) (s.thr : Multiset Proc) ∨
  (t.thr = s.thr ∧ t.crashed = true ∧ s.crashed = false)

theorem below_of_step {s t : St} (h : Step s t) : Below t s := by
  obtain ⟨i, j, h⟩ := h
  unfold step at h
  split at h
  · simp at h
  · rename_i hcr
    have hcr : s.crashed = false := by simpa using hcr
    split at h
    · simp at h
    · simp at h
    · cases h; exact .inr ⟨rfl, rfl, hcr⟩
    · rename_i hi
      split at h
      · cases h; exact .inl (.single (cut_set hi .store))
      · cases h; exact .inr ⟨rfl, rfl, hcr⟩
    · rename_i hi
      split at h
      · cases h; exact .inl (.single (cut_set hi .recv))
      · simp at h
    · rename_i hi
      split at h
      · cases h; exact .inl (.single (cut_set hi .send))
      · split at h
        · rename_i c' k' hj
          split at h
          · rename_i hh
            cases h
            left
            refine .tail (.single (cut_set (p := .recv c' k') ?_ .recv)) (cut_set hi .send)
            rw [List.getElem?_set_ne (Ne.symm hh.2)]; exact hj
          · simp at h
        · simp at h
      · simp at h
    · rename_i p k hi
      cases h
      left
      refine .single ⟨{k, p}, .fork p k, ?_, ?_⟩
      · intro q hq
        simp at hq
        rcases hq with rfl | rfl
        · exact .forkR
        · exact .forkL
      · show ((s.thr.set i k ++ [p] : List Proc) : Multiset Proc) + _ = _
        rw [← Multiset.coe_add, add_right_comm, coe_set hi]
        rw [show ({k, p} : Multiset Proc) = {k} + {p} from rfl, add_assoc]
        rfl
    · rename_i hi
      cases h; exact .inl (.single (cut_set hi .wgNew))
    · rename_i hi
      split at h
      · cases h; exact .inl (.single (cut_set hi .wgDone))
      · cases h; exact .inr ⟨rfl, rfl, hcr⟩
      · simp at h
    · rename_i hi
      split at h
      · cases h; exact .inl (.single (cut_set hi .wgWait))
      · simp at h
    · rename_i hi
      cases h; exact .inl (.single (cut_set hi .setCell))
    · rename_i hi
      cases h; exact .inl (.single (cut_set hi .getCell))

theorem below_wf : WellFounded Below := by
  have hwf : WellFounded (Relation.TransGen (Relation.CutExpand Proc.Sub)) :=
    (Proc.sub_wf.cutExpand).transGen
  constructor
  intro s
  -- induction on the pool, then on the flag
  have key : ∀ m : Multiset Proc, ∀ s : St, (s.thr : Multiset Proc) = m → Acc Below s := by
    intro m
    induction m using hwf.induction with
    | _ m ih =>
      have hcr : ∀ s : St, (s.thr : Multiset Proc) = m → s.crashed = true → Acc Below s := by
        intro s hs hc
        refine ⟨_, fun t ht => ?_⟩
        rcases ht with ht | ⟨_, _, h3⟩
        · exact ih _ (hs ▸ ht) t rfl
        · rw [hc] at h3; simp at h3
      intro s hs
      refine ⟨_, fun t ht => ?_⟩
      rcases ht with ht | ⟨h1, h2, _⟩
      · exact ih _ (hs ▸ ht) t rfl
      · exact hcr t (by rw [h1, hs]) h2
  exact key _ s rfl

/-- There is no infinite execution, whatever the scheduler does. -/
theorem step_wf : WellFounded (fun t s : St => Step s t) :=
  Subrelation.wf (fun h => below_of_step h) below_wf

/-- Every execution can be continued to a state where nobody can step. -/
theorem exists_stuck (s : St) : ∃ t, Reach s t ∧ Stuck t := by
  induction s using step_wf.induction with
  | _ s ih =>
    by_cases h : Stuck s
    · exact ⟨s, .refl, h⟩
    · unfold Stuck at h
      simp only [not_forall, not_not] at h
      obtain ⟨t, ht⟩ := h
      obtain ⟨u, hu, hst⟩ := ih t ht
      exact ⟨u, Reach.trans (Reach.tail .refl ht) hu, hst⟩

end Speed
