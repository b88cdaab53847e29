import Verif.Bench

/-!
# C78: the benchmark runner
-/

namespace Verif

/-! ## Specification -/

/-- Reachable states. -/
inductive BenchReach (cap par : Nat) (output : BenchJob → List (Bool × Char))
    (jobs : List BenchJob) : BenchState → Prop
  | init : BenchReach cap par output jobs (.init jobs)
  | step {s t} : BenchReach cap par output jobs s → BenchStep cap par output s t →
      BenchReach cap par output jobs t

/-- What a process writes to one stream. -/
def stream (b : Bool) (l : List (Bool × Char)) : List Char :=
  (l.filter fun x => x.1 == b).map Prod.snd

/-- The verdict on an output, by what occurs in it. -/
inductive VerdictSpec (out : List Char) : Verdict → Prop
  | fail : "Error".toList <:+: out → VerdictSpec out .fail
  | pass : ¬ "Error".toList <:+: out → "Success:".toList <:+: out → VerdictSpec out .pass
  | unknown : ¬ "Error".toList <:+: out → ¬ "Success:".toList <:+: out → VerdictSpec out .unknown

theorem verdict_spec (out : List Char) : VerdictSpec out (verdict out) := by
  unfold verdict
  split
  · rename_i h; exact .fail ((strFind_some _ _).1 h)
  · rename_i h
    have h' := fun e => h ((strFind_some _ _).2 e)
    split
    · rename_i h2; exact .pass h' ((strFind_some _ _).1 h2)
    · rename_i h2; exact .unknown h' fun e => h2 ((strFind_some _ _).2 e)

theorem stream_cons_same (b : Bool) (c : Char) (l : List (Bool × Char)) :
    stream b ((b, c) :: l) = c :: stream b l := by
  simp [stream]

theorem stream_cons_other {b b' : Bool} (h : b' ≠ b) (c : Char) (l : List (Bool × Char)) :
    stream b ((b', c) :: l) = stream b l := by
  simp [stream, h]

/-! ## At most so many at once -/

/-- C78.  Never more than `PARALLEL` processes at once. -/
theorem C78_parallel {cap par : Nat} (hp : 0 < par) {output : BenchJob → List (Bool × Char)}
    {jobs : List BenchJob} {s : BenchState} (h : BenchReach cap par output jobs s) :
    s.runs.length ≤ par := by
  have : s.runs.length ≤ par ∧ (s.waiting = false → s.runs.length < par) := by
    induction h with
    | init => exact ⟨Nat.zero_le _, fun _ => hp⟩
    | step _ st ih =>
      cases st with
      | work _ => simpa using ih
      | start =>
        have := ih.2 rfl
        simp only at this
        simp only [List.length_append, List.length_cons, List.length_nil, decide_eq_false_iff_not]
        omega
      | drain _ => exact ⟨ih.1, nofun⟩
      | reap _ =>
        have := ih.1
        simp only [List.length_append, List.length_cons] at this ⊢
        exact ⟨by omega, fun _ => by omega⟩
  exact this.1

/-! ## Every job gets its result -/

/-- A process of a job: what it has written and what it has still to write. -/
def ProcOf (output : BenchJob → List (Bool × Char)) (j : BenchJob) (p : BenchProc) : Prop :=
  stream false (output j) = p.out ++ stream false p.left ∧
  stream true (output j) = p.err ++ stream true p.left

/-- The output as the script reads it. -/
def jobOutput (output : BenchJob → List (Bool × Char)) (j : BenchJob) : List Char :=
  stream false (output j) ++ stream true (output j)

theorem procOf_step {cap : Nat} {output : BenchJob → List (Bool × Char)} {j : BenchJob}
    {p p' : BenchProc} (h : ProcOf output j p) (st : ProcStep cap p p') : ProcOf output j p' := by
  obtain ⟨h1, h2⟩ := h
  cases st with
  | out _ =>
    refine ⟨?_, ?_⟩
    · rw [h1]; simp [stream_cons_same]
    · rw [h2]; simp [stream_cons_other (b := true) (b' := false) (by decide)]
  | err _ =>
    refine ⟨?_, ?_⟩
    · rw [h1]; simp [stream_cons_other (b := false) (b' := true) (by decide)]
    · rw [h2]; simp [stream_cons_same]

/-- The invariant. -/
structure BenchInv (output : BenchJob → List (Bool × Char)) (jobs : List BenchJob)
    (s : BenchState) : Prop where
  procs : ∀ j p, (j, p) ∈ s.runs → ProcOf output j p
  known : ∀ j, (j ∈ s.todo ∨ j ∈ s.runs.map Prod.fst) → j ∈ jobs
  results : ∀ k v, (k, v) ∈ s.results →
    ∃ j, j ∈ jobs ∧ j.key = k ∧ v = verdict (jobOutput output j)
  somewhere : ∀ j, j ∈ jobs → j ∈ s.todo ∨ j ∈ s.runs.map Prod.fst ∨ ∃ v, (j.key, v) ∈ s.results
  nonempty : s.waiting = true → s.runs ≠ []

theorem benchInv {cap par : Nat} {output : BenchJob → List (Bool × Char)} {jobs : List BenchJob}
    {s : BenchState} (h : BenchReach cap par output jobs s) : BenchInv output jobs s := by
  induction h with
  | init => exact ⟨nofun, fun j hj => by simpa [BenchState.init] using hj, nofun, fun j hj => .inl hj, nofun⟩
  | step _ st ih =>
    obtain ⟨i1, i2, i3, i4, i5⟩ := ih
    cases st with
    | @work todo a j p p' b res w hp =>
      refine ⟨fun j' q hq => ?_, by simpa using i2, i3, by simpa using i4, by simp⟩
      simp only [List.mem_append, List.mem_cons] at hq
      rcases hq with hq | hq | hq
      · exact i1 _ _ (by simp [hq])
      · cases hq
        exact procOf_step (i1 _ _ (by simp)) hp
      · exact i1 _ _ (by simp [hq])
    | @start j todo runs res =>
      refine ⟨fun j' q hq => ?_, fun j' hj => ?_, i3, fun j' hj => ?_, by simp⟩
      · simp only [List.mem_append, List.mem_singleton] at hq
        rcases hq with hq | hq
        · exact i1 _ _ hq
        · cases hq
          exact ⟨rfl, rfl⟩
      · simp only [List.map_append, List.mem_append, List.map_cons, List.map_nil,
          List.mem_singleton] at hj
        rcases hj with hj | hj | rfl
        · exact i2 _ (.inl (List.mem_cons_of_mem _ hj))
        · exact i2 _ (.inr hj)
        · exact i2 _ (.inl List.mem_cons_self)
      · simp only [List.map_append, List.mem_append, List.map_cons, List.map_nil,
          List.mem_singleton]
        rcases i4 j' hj with h | h | h
        · rcases List.mem_cons.1 h with rfl | h
          · exact .inr (.inl (.inr rfl))
          · exact .inl h
        · exact .inr (.inl (.inl h))
        · exact .inr (.inr h)
    | drain hr => exact ⟨i1, i2, i3, i4, fun _ => hr⟩
    | @reap todo a j p b res hl =>
      have hin : (j, p) ∈ a ++ (j, p) :: b := by simp
      obtain ⟨e1, e2⟩ := i1 _ _ hin
      rw [hl] at e1 e2
      simp only [stream, List.filter_nil, List.map_nil, List.append_nil] at e1 e2
      refine ⟨fun j' q hq => i1 _ _ ?_, fun j' hj => i2 _ ?_, fun k v hk => ?_, fun j' hj => ?_, nofun⟩
      · simp only [List.mem_append, List.mem_cons] at hq ⊢
        rcases hq with h | h
        · exact .inl h
        · exact .inr (.inr h)
      · simp only [List.map_append, List.mem_append, List.map_cons, List.mem_cons] at hj ⊢
        rcases hj with h | h | h
        · exact .inl h
        · exact .inr (.inl h)
        · exact .inr (.inr (.inr h))
      · rcases List.mem_cons.1 hk with e | hk
        · injection e with e3 e4
          refine ⟨j, i2 j (.inr (by simp)), e3.symm, ?_⟩
          rw [e4]
          unfold jobOutput stream
          rw [e1, e2]
        · exact i3 k v hk
      · simp only [List.map_append, List.mem_append, List.mem_cons]
        rcases i4 j' hj with h | h | ⟨v, h⟩
        · exact .inl h
        · simp only [List.map_append, List.mem_append, List.map_cons, List.mem_cons] at h
          rcases h with h | rfl | h
          · exact .inr (.inl (.inl h))
          · exact .inr (.inr ⟨_, .inl rfl⟩)
          · exact .inr (.inl (.inr h))
        · exact .inr (.inr ⟨v, .inr h⟩)

theorem result_of {s : BenchState} {k : BenchKey} {v : Verdict}
    (h1 : ∃ v, (k, v) ∈ s.results) (h2 : ∀ w, (k, w) ∈ s.results → w = v) : s.result k = some v := by
  unfold BenchState.result
  obtain ⟨w, hw⟩ := h1
  cases hf : s.results.find? (fun x => decide (x.1 = k)) with
  | none =>
    have := List.find?_eq_none.1 hf _ hw
    simp at this
  | some x =>
    have e := List.find?_some hf
    have hm := List.mem_of_find?_eq_some hf
    simp only [decide_eq_true_eq] at e
    subst e
    simp [h2 x.2 hm]

/-- C78.  When the script has ended, the table has for every job the verdict on its output, and
nothing else. -/
theorem C78_results {cap par : Nat} {output : BenchJob → List (Bool × Char)} {jobs : List BenchJob}
    (hk : ∀ i, i ∈ jobs → ∀ j, j ∈ jobs → i.key = j.key → i = j)
    {s : BenchState} (h : BenchReach cap par output jobs s) (hd : s.Done) :
    (∀ j, j ∈ jobs → ∃ v, s.result j.key = some v ∧
      VerdictSpec (stream false (output j) ++ stream true (output j)) v) ∧
    ∀ k v, s.result k = some v → ∃ j, j ∈ jobs ∧ j.key = k := by
  have i := benchInv h
  obtain ⟨d1, d2, d3⟩ := hd
  constructor
  · intro j hj
    refine ⟨verdict (jobOutput output j), result_of ?_ ?_, verdict_spec _⟩
    · rcases i.somewhere j hj with h | h | h
      · rw [d1] at h; cases h
      · rw [d2] at h; cases h
      · exact h
    · intro w hw
      obtain ⟨j', h1, h2, h3⟩ := i.results _ _ hw
      rw [hk j' h1 j hj h2] at h3
      exact h3
  · intro k v hv
    unfold BenchState.result at hv
    cases hf : s.results.find? (fun x => decide (x.1 = k)) with
    | none => rw [hf] at hv; cases hv
    | some x =>
      have e := List.find?_some hf
      have hm := List.mem_of_find?_eq_some hf
      simp only [decide_eq_true_eq] at e
      subst e
      obtain ⟨j, h1, h2, _⟩ := i.results x.1 x.2 hm
      exact ⟨j, h1, h2⟩

/-- The jobs have different keys if modes, columns and benchmarks do. -/
theorem C78_keys {modes : List String} {configs : List (String × String)} {tests : List String}
    (hc : ∀ c, c ∈ configs → ∀ d, d ∈ configs → c.1 = d.1 → c = d) :
    ∀ i, i ∈ genConfigs modes configs tests → ∀ j, j ∈ genConfigs modes configs tests →
      i.key = j.key → i = j := by
  intro i hi j hj hk
  simp only [genConfigs, List.mem_flatMap, List.mem_map] at hi hj
  obtain ⟨m, _, c, hc1, t, _, rfl⟩ := hi
  obtain ⟨m', _, c', hc2, t', _, rfl⟩ := hj
  simp only [BenchJob.key, BenchKey.mk.injEq] at hk
  obtain ⟨rfl, e, rfl⟩ := hk
  cases hc c hc1 c' hc2 e
  rfl

/-- C78.  Printing the table for a mode that was run finds all its entries. -/
theorem C78_table {cap par : Nat} {output : BenchJob → List (Bool × Char)}
    {modes : List String} {configs : List (String × String)} {tests : List String}
    (hc : ∀ c, c ∈ configs → ∀ d, d ∈ configs → c.1 = d.1 → c = d)
    {s : BenchState} (h : BenchReach cap par output (genConfigs modes configs tests) s) (hd : s.Done)
    {m t : String} {c : String × String} (hm : m ∈ modes) (hcc : c ∈ configs) (ht : t ∈ tests) :
    ∃ v, s.result ⟨m, c.1, t⟩ = some v ∧ VerdictSpec
      (stream false (output ⟨m, c.1, c.2, t⟩) ++ stream true (output ⟨m, c.1, c.2, t⟩)) v := by
  refine (C78_results (C78_keys hc) h hd).1 ⟨m, c.1, c.2, t⟩ ?_
  simp only [genConfigs, List.mem_flatMap, List.mem_map]
  exact ⟨m, hm, c, hcc, t, ht, rfl⟩

/-! ## It ends, or not -/

/-- How much remains to be done. -/
def BenchState.work (output : BenchJob → List (Bool × Char)) (s : BenchState) : Nat :=
  (s.todo.map fun j => (output j).length + 4).sum + (s.runs.map fun r => r.2.left.length + 2).sum +
    if s.waiting then 0 else 1

/-- C78.  There is no infinite run: every step is one step less. -/
theorem C78_finite {cap par : Nat} {output : BenchJob → List (Bool × Char)} {s t : BenchState}
    (h : BenchStep cap par output s t) : t.work output < s.work output := by
  cases h with
  | work hp => cases hp <;> simp [BenchState.work] <;> omega
  | start =>
    simp only [BenchState.work, List.map_cons, List.sum_cons, List.map_append, List.map_nil,
      List.sum_append, List.sum_nil]
    split <;> simp <;> omega
  | drain _ => simp [BenchState.work]
  | reap hl => simp [BenchState.work, hl]; omega

/-- A job whose output fits into the pipes. -/
def PipeFits (cap : Nat) (output : BenchJob → List (Bool × Char)) (j : BenchJob) : Prop :=
  (stream false (output j)).length ≤ cap ∧ (stream true (output j)).length ≤ cap

theorem proc_progress {cap : Nat} {output : BenchJob → List (Bool × Char)} {j : BenchJob}
    {p : BenchProc} (h : ProcOf output j p) (hf : PipeFits cap output j) :
    p.left = [] ∨ ∃ p', ProcStep cap p p' := by
  obtain ⟨l, o, e⟩ := p
  obtain ⟨h1, h2⟩ := h
  obtain ⟨f1, f2⟩ := hf
  rw [h1] at f1
  rw [h2] at f2
  simp only [List.length_append] at f1 f2
  match l with
  | [] => exact .inl rfl
  | (false, c) :: l =>
    rw [stream_cons_same, List.length_cons] at f1
    exact .inr ⟨_, .out (by omega)⟩
  | (true, c) :: l =>
    rw [stream_cons_same, List.length_cons] at f2
    exact .inr ⟨_, .err (by omega)⟩

/-- C78, part.  If the outputs fit into the pipes, the script is never stuck before it has
ended.  With `C78_finite` every run ends with all results.  Missing: larger outputs. -/
theorem C78_progress_partial {cap par : Nat} {output : BenchJob → List (Bool × Char)}
    {jobs : List BenchJob} (hf : ∀ j, j ∈ jobs → PipeFits cap output j)
    {s : BenchState} (h : BenchReach cap par output jobs s) :
    s.Done ∨ ∃ t, BenchStep cap par output s t := by
  have i := benchInv h
  obtain ⟨todo, runs, res, w⟩ := s
  cases w with
  | true =>
    match runs, i.nonempty rfl with
    | (j, p) :: runs, _ =>
      right
      have hj : j ∈ jobs := i.known j (.inr (by simp))
      rcases proc_progress (i.procs j p (by simp)) (hf j hj) with hl | ⟨p', hp⟩
      · exact ⟨_, .reap (a := []) hl⟩
      · exact ⟨_, .work (a := []) hp⟩
  | false =>
    match todo, runs with
    | j :: todo, _ => exact .inr ⟨_, .start⟩
    | [], [] => exact .inl ⟨rfl, rfl, rfl⟩
    | [], r :: runs => exact .inr ⟨_, .drain (by simp)⟩

theorem benchReach_bounded {cap par : Nat} {output : BenchJob → List (Bool × Char)}
    {jobs : List BenchJob} {s : BenchState} (h : BenchReach cap par output jobs s) :
    ∀ j p, (j, p) ∈ s.runs → p.out.length ≤ cap ∧ p.err.length ≤ cap := by
  induction h with
  | init => nofun
  | step _ st ih =>
    cases st with
    | @work todo a j p p' b res w hp =>
      intro j' q hq
      simp only [List.mem_append, List.mem_cons] at hq
      rcases hq with hq | hq | hq
      · exact ih j' q (by simp [hq])
      · cases hq
        have := ih j p (by simp)
        cases hp with
        | out hlt => simp only [List.length_append, List.length_cons, List.length_nil]; exact ⟨hlt, this.2⟩
        | err hlt => simp only [List.length_append, List.length_cons, List.length_nil]; exact ⟨this.1, hlt⟩
      · exact ih j' q (by simp [hq])
    | start =>
      intro j' q hq
      simp only [List.mem_append, List.mem_singleton] at hq
      rcases hq with hq | hq
      · exact ih _ _ hq
      · cases hq; simp
    | drain _ => exact ih
    | reap _ =>
      intro j' q hq
      refine ih j' q ?_
      simp only [List.mem_append, List.mem_cons] at hq ⊢
      rcases hq with h | h
      · exact .inl h
      · exact .inr (.inr h)

/-- C78 is false: with a job that writes more than a pipe takes, the script never ends, whatever
the other jobs do. -/
theorem C78_refuted_stuck {cap par : Nat} {output : BenchJob → List (Bool × Char)}
    {jobs : List BenchJob} {j : BenchJob} (hj : j ∈ jobs) (hf : ¬ PipeFits cap output j)
    {s : BenchState} (h : BenchReach cap par output jobs s) : ¬ s.Done := by
  have key : j ∈ s.todo ∨ j ∈ s.runs.map Prod.fst := by
    induction h with
    | init => exact .inl hj
    | @step s t hs st ih =>
      have i := benchInv hs
      have bd := benchReach_bounded hs
      cases st with
      | work _ => simpa using ih
      | start =>
        rcases ih with h | h
        · rcases List.mem_cons.1 h with rfl | h
          · exact .inr (by simp)
          · exact .inl h
        · exact .inr (by simp only [List.map_append, List.mem_append]; exact .inl h)
      | drain _ => exact ih
      | @reap todo a j' p b res hl =>
        rcases ih with h | h
        · exact .inl h
        · simp only [List.map_append, List.mem_append, List.map_cons, List.mem_cons] at h ⊢
          rcases h with h | rfl | h
          · exact .inr (.inl h)
          · exfalso
            have hin : (j, p) ∈ a ++ (j, p) :: b := by simp
            obtain ⟨e1, e2⟩ := i.procs _ _ hin
            obtain ⟨b1, b2⟩ := bd _ _ hin
            rw [hl] at e1 e2
            simp only [stream, List.filter_nil, List.map_nil, List.append_nil] at e1 e2
            refine hf ⟨?_, ?_⟩
            · unfold stream; rw [e1]; exact b1
            · unfold stream; rw [e2]; exact b2
          · exact .inr (.inr h)
  rintro ⟨d1, d2, _⟩
  rw [d1, d2] at key
  rcases key with h | h <;> cases h

/-- C78 is false: a run that succeeded is reported as failed if it mentions errors. -/
theorem C78_refuted_verdict : verdict "Errors: 0\nSuccess: 1x605.mcf_s".toList = .fail := by
  decide +kernel

/-! ## An example -/

/-- Two jobs, each of which writes one line. -/
def benchJobs : List BenchJob := genConfigs ["full"] [("ST", "st"), ("MT", "mt")] ["mcf"]

example : BenchReach 65536 5 (fun _ => [(false, 'x')]) benchJobs
    ⟨[], [], [(⟨"full", "MT", "mcf"⟩, .unknown), (⟨"full", "ST", "mcf"⟩, .unknown)], false⟩ := by
  have h0 : BenchReach 65536 5 (fun _ => [(false, 'x')]) benchJobs (.init benchJobs) := .init
  have h1 := h0.step (.start)
  have h2 := h1.step (.start)
  have h3 := h2.step (.work (a := []) (.out (by decide)))
  have h4 := h3.step (.work (a := [_]) (b := []) (.out (by decide)))
  have h5 := h4.step (.drain (by simp))
  have h6 := h5.step (.reap (a := []) rfl)
  have h7 := h6.step (.drain (by simp))
  have h8 := h7.step (.reap (a := []) rfl)
  exact h8

example : ∀ j, j ∈ benchJobs → PipeFits 65536 (fun _ => [(false, 'x')]) j := by
  intro j _; exact ⟨by simp [stream], by simp [stream]⟩

theorem stream_replicate (n : Nat) : (stream false (List.replicate n (false, 'x'))).length = n := by
  induction n with
  | zero => rfl
  | succ n ih => rw [List.replicate_succ, stream_cons_same, List.length_cons, ih]

/-- A job that writes 65537 characters. -/
example : ¬ PipeFits 65536 (fun _ => List.replicate 65537 (false, 'x')) ⟨"full", "ST", "st", "mcf"⟩ := by
  rintro ⟨h, _⟩
  rw [stream_replicate] at h
  omega

end Verif
