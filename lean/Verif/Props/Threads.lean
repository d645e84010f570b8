import Verif.Model.Parser.Threads
import Verif.Spec.Parsed
import Verif.Proofs.Parser.ParseAccept

/-!
# C70: parsers in several goroutines

`World.run` (`Verif/Model/Parser/Threads.lean`) lets a scheduler interleave any number of goroutines,
each of which calls `Parse` on a parser of its own. The theorems compare the result of one of them with
the result of the same call in a program without goroutines (`Parser.parse`, `parseWith`).
-/

namespace GoVtd

open Parser

/-- The goroutine after a turn; the shared variable does not matter (`step_fst`). -/
def Thread.next (t : Thread) : Thread := (t.step (.leaf (.eof ""))).1

theorem step_fst (c : GoErr) (t : Thread) : (t.step c).1 = t.next := by
  cases t with
  | fresh p => simp only [Thread.next, Thread.step]; cases parseHead p <;> rfl
  | loop p st =>
    simp only [Thread.next, Thread.step]
    cases Parser.step st p with
    | err e p' => simp only; cases onStepErr st e p' <;> rfl
    | _ => rfl
  | done r => rfl

/-- The goroutine after `k` turns. -/
def Thread.after : Nat → Thread → Thread
  | 0, t => t
  | k + 1, t => Thread.after k t.next

theorem after_done (k : Nat) (r : Res Parser Unit) : Thread.after k (.done r) = .done r := by
  induction k with
  | zero => rfl
  | succ k ih => exact ih

theorem after_add (j k : Nat) (t : Thread) : Thread.after (j + k) t = Thread.after k (Thread.after j t) := by
  induction j generalizing t with
  | zero => rw [Nat.zero_add]; rfl
  | succ j ih => rw [Nat.succ_add]; exact ih _

/-- A goroutine depends on the number of its own turns only. -/
theorem run_thread (w : World) (sched : List Nat) (i : Nat) :
    (w.run sched).threads[i]? = (w.threads[i]?).map (Thread.after (sched.count i)) := by
  induction sched generalizing w with
  | nil => simp [World.run, Thread.after]
  | cons j sched ih =>
    show ((w.turn j).run sched).threads[i]? = _
    rw [ih, List.count_cons]
    unfold World.turn
    by_cases hj : j = i
    · subst hj
      cases ht : w.threads[j]? with
      | none => simp [ht]
      | some t =>
        have hlt : j < w.threads.length := by
          rcases List.getElem?_eq_some_iff.1 ht with ⟨h, -⟩
          exact h
        simp only [List.getElem?_set_self hlt, Option.map_some, step_fst, BEq.rfl, if_true]
        rfl
    · have hb : (j == i) = false := by simpa using hj
      rw [hb]
      cases ht : w.threads[j]? with
      | none => rfl
      | some t => simp [List.getElem?_set_ne hj]

theorem loop_after (n : Nat) {st : PState} {p : Parser} (h : mainLoop n st p ≠ .diverge) :
    ∃ k, Thread.after k (.loop p st) = .done (mainLoop n st p) := by
  induction n generalizing st p with
  | zero => exact absurd rfl h
  | succ n ih =>
    cases hs : step st p with
    | ok st' p' =>
      rw [mainLoop_step hs] at h ⊢
      obtain ⟨k, hk⟩ := ih h
      exact ⟨k + 1, by simpa only [Thread.after, Thread.next, Thread.step, hs] using hk⟩
    | err e p' =>
      refine ⟨1, ?_⟩
      simp only [Thread.after, Thread.next, Thread.step, hs]
      rw [mainLoop] at h ⊢
      simp only [M.bind_apply, M.catchErr_apply, hs, Res.andThen_err, Res.handle_err] at h ⊢
      have hn : ∀ a q, onStepErr st e p' = .ok a q → a = none := by
        intro a q hq
        simp only [onStepErr, M.ite_apply, M.bind_apply, M.raise_apply] at hq
        split at hq
        · cases hw : wrapInternal "failed to finish-up document parsing" finishUp p' with
          | ok u r => rw [hw] at hq; cases hq; rfl
          | _ => rw [hw] at hq; cases hq
        · cases hq
      cases ho : onStepErr st e p' with
      | ok a q => obtain rfl := hn a q ho; rfl
      | err e' q => rfl
      | panic => rfl
      | diverge => rw [ho] at h; exact absurd rfl h
    | panic => exact ⟨1, by simp only [Thread.after, Thread.next, Thread.step, hs, mainLoop_panic hs]⟩
    | diverge => rw [mainLoop_diverge hs] at h; exact absurd rfl h

theorem parse_after {p : Parser} (h : parse p ≠ .diverge) :
    ∃ k, Thread.after k (.fresh p) = .done (parse p) := by
  have hp : parse p = (decideEncoding p).andThen fun _ q =>
      (writeVtd .document 0 0 q.depth q).andThen fun _ => mainLoop q.loopFuel .docStart := rfl
  have hh : parseHead p = (decideEncoding p).andThen fun _ q => writeVtd .document 0 0 q.depth q := rfl
  rw [hp] at h ⊢
  cases hd : decideEncoding p with
  | ok a q =>
    rw [hd] at h hh
    simp only [Res.andThen_ok] at h hh ⊢
    cases hw : writeVtd .document 0 0 q.depth q with
    | ok b r =>
      rw [hw] at h hh
      obtain ⟨k, hk⟩ := loop_after _ h
      exact ⟨k + 1, by simpa only [Thread.after, Thread.next, Thread.step, hh, Res.andThen_ok] using hk⟩
    | err e r => rw [hw] at hh; exact ⟨1, by simp only [Thread.after, Thread.next, Thread.step, hh, Res.andThen_err]⟩
    | panic => rw [hw] at hh; exact ⟨1, by simp only [Thread.after, Thread.next, Thread.step, hh, Res.andThen_panic]⟩
    | diverge => rw [hw] at h; exact absurd rfl h
  | err e r => rw [hd] at hh; exact ⟨1, by simp only [Thread.after, Thread.next, Thread.step, hh, Res.andThen_err]⟩
  | panic => rw [hd] at hh; exact ⟨1, by simp only [Thread.after, Thread.next, Thread.step, hh, Res.andThen_panic]⟩
  | diverge => rw [hd] at h; exact absurd rfl h

/-- Once a goroutine has returned, it has returned what the call returns alone. -/
theorem after_result {p : Parser} (h : parse p ≠ .diverge) {j : Nat} {r : Res Parser Unit}
    (hj : Thread.after j (.fresh p) = .done r) : r = parse p := by
  obtain ⟨k, hk⟩ := parse_after h
  have h1 := after_add j k (.fresh p)
  have h2 := after_add k j (.fresh p)
  rw [hj, after_done] at h1
  rw [hk, after_done, Nat.add_comm, h1] at h2
  exact Thread.done.inj h2

/-- C70, for the results. Let any number of parsers be created and let each of them call `Parse` in a
goroutine of its own. Whatever the schedule: if goroutine `i` has returned, its outcome is the outcome of
the same parser alone, and it has returned if it was given enough turns, a number that depends neither on
the other parsers nor on the schedule. The parser is left in the same state, hence with the same records.
The hypothesis `hr` excludes the endless loop of `C29_refuted`. -/
theorem C70_results_partial (fuel : Nat) (opts : List ParserOption) (p : Parser) (hp : newVtdParser fuel opts = .ok p)
    (hr : parseWith fuel opts ≠ .noReturn) :
    ∃ k, ∀ (ps : List Parser) (i : Nat), ps[i]? = some p → ∀ sched : List Nat,
      (k ≤ sched.count i → ((World.start ps).run sched).threads[i]? = some (.done (parse p))) ∧
      (∀ r, ((World.start ps).run sched).threads[i]? = some (.done r) →
        r = parse p ∧ r.outcome = parseWith fuel opts) := by
  have hd : parse p ≠ .diverge := by
    intro h
    refine hr ?_
    rw [parseWith, hp]
    simp only [h, Res.outcome]
  obtain ⟨k, hk⟩ := parse_after hd
  refine ⟨k, fun ps i hi sched => ⟨fun hc => ?_, fun r h => ?_⟩⟩
  · rw [run_thread]
    simp only [World.start, List.getElem?_map, hi, Option.map_some]
    obtain ⟨j, hj⟩ := Nat.le.dest hc
    rw [← hj, after_add, hk, after_done]
  · rw [run_thread] at h
    simp only [World.start, List.getElem?_map, hi, Option.map_some, Option.some.injEq] at h
    obtain rfl := after_result hd h
    exact ⟨rfl, by rw [parseWith, hp]⟩

theorem find_eof {e f : GoErr} (h : e.find .eof = some f) : f.kind.type = .eof := by
  induction e with
  | leaf k =>
    simp only [GoErr.find] at h
    split at h
    · cases h; assumption
    · cases h
  | wrap k e ih =>
    simp only [GoErr.find] at h
    split at h
    · cases h; assumption
    · exact ih h

theorem step_snd (c : GoErr) (t : Thread) (hc : c.kind.type = .eof) : (t.step c).2.kind.type = .eof := by
  have key : ∀ e : GoErr, ((e.find .eof).getD c).kind.type = .eof := by
    intro e
    cases he : e.find .eof with
    | none => exact hc
    | some f => exact find_eof he
  cases t with
  | fresh p => simp only [Thread.step]; cases parseHead p <;> exact hc
  | loop p st =>
    simp only [Thread.step]
    cases Parser.step st p with
    | err e p' => simp only; cases onStepErr st e p' <;> first | exact key e | exact hc
    | _ => exact hc
  | done r => exact hc

/-- C70, for the exported variable: whatever the schedule, it holds an end-of-file error, so that it
still is what its type is used for, the target of `errors.As` and `assert.IsType`. -/
theorem C70_type_partial (ps : List Parser) (sched : List Nat) :
    ((World.start ps).run sched).cell.kind.type = .eof := by
  suffices h : ∀ w : World, w.cell.kind.type = .eof → (w.run sched).cell.kind.type = .eof from h _ rfl
  induction sched with
  | nil => exact fun w h => h
  | cons i sched ih =>
    intro w h
    refine ih (w.turn i) ?_
    unfold World.turn
    split
    · exact h
    · exact step_snd _ _ h

/-- A parser for a document. -/
def threadParser (doc : String) : Parser :=
  match newVtdParser 0 [.xmlDoc (some (bytes doc))] with
  | .ok p => p
  | .error _ => initParser 0 [] {} ⟨.utf8, [], 0, 0⟩

/-- A turn of the goroutine overwrites the shared variable: whatever it holds, it holds `e` afterwards. -/
def Overwrites (w : World) (i : Nat) (e : GoErr) : Prop :=
  ∀ c : GoErr, (World.turn { w with cell := c } i).cell = e

/-- The next turn of goroutine `i` returns with the end-of-file error `e`. -/
def endsWith (w : World) (i : Nat) (e : GoErr) : Bool :=
  match w.threads[i]? with
  | some (.loop p st) =>
    match Parser.step st p with
    | .err e' p' => decide (e'.find .eof = some e) && decide ((onStepErr st e' p').outcome ≠ .noReturn)
    | _ => false
  | _ => false

theorem overwrites_of {w : World} {i : Nat} {e : GoErr} (h : endsWith w i e = true) : Overwrites w i e := by
  intro c
  unfold endsWith at h
  cases ht : w.threads[i]? with
  | none => rw [ht] at h; cases h
  | some t =>
    rw [ht] at h
    cases t with
    | fresh p => cases h
    | done r => cases h
    | loop p st =>
      simp only at h
      cases hs : Parser.step st p with
      | err e' p' =>
        rw [hs] at h
        simp only [Bool.and_eq_true, decide_eq_true_eq] at h
        simp only [World.turn, ht, Thread.step, hs]
        cases ho : onStepErr st e' p' with
        | diverge => rw [ho] at h; exact absurd rfl h.2
        | _ => simp only [h.1, Option.getD_some]
      | _ => rw [hs] at h; cases h

/-- C70 is false of the exported variable `erroring.EOFErrorType`: a successful `Parse` overwrites it, so
that it is not the same before and after, and two goroutines may be about to overwrite it at the same
time, with no lock between them. -/
theorem C70_refuted :
    (World.start [threadParser "<a/>", threadParser "<b/>"]).cell = newEOFError "" ∧
    ((World.start [threadParser "<a/>", threadParser "<b/>"]).run [0, 0, 0, 0, 0]).cell = newEOFError XmlIncomplete ∧
    ∃ sched, Overwrites ((World.start [threadParser "<a/>", threadParser "<b/>"]).run sched) 0 (newEOFError XmlIncomplete) ∧
      Overwrites ((World.start [threadParser "<a/>", threadParser "<b/>"]).run sched) 1 (newEOFError XmlIncomplete) := by
  exact ⟨rfl, by decide +kernel, [0, 1, 0, 1, 1, 0, 0, 1], overwrites_of (by decide +kernel),
    overwrites_of (by decide +kernel)⟩

/-- Non-vacuity: three goroutines on documents with different outcomes; after these schedules all have
returned, with the outcomes of the calls alone. -/
example : (((World.start [threadParser "<a/>", threadParser "<a></", threadParser "<a>x</b>"]).run
      [0, 1, 2, 2, 1, 0, 0, 1, 2, 1, 0, 2, 0, 1, 2, 0, 1, 2, 1, 2, 2, 0, 2]).threads.map fun t => match t with
        | .done r => some r.outcome
        | _ => none) =
    [parseDoc (bytes "<a/>"), parseDoc (bytes "<a></"), parseDoc (bytes "<a>x</b>")].map some ∧
    parseDoc (bytes "<a/>") = .value () ∧ parseDoc (bytes "<a></") = .error (newEOFError XmlIncomplete) := by
  decide +kernel

end GoVtd
