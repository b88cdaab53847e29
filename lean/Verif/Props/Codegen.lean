import Verif.Codegen

/-! # C122: what the generated library is made from -/

namespace Verif.Codegen

/-! ## The text -/

/-- The statements that are generated. -/
def stmts (vf : Bool) : List Stmt :=
  [.alloc 1024, .setGs, .next, .zero, .next] ++ (if vf then [.zero, .next] else []) ++ [.store]

/-- **C122, the text.** The generated code is a function which consists of these statements, and which initialises the
region as `Runtime` says. -/
theorem _root_.Verif.C122_text (vf : Bool) : memRegionInit vf =
    includes ++ "void litecfi_init_mem_region() {\n" ++ String.join ((stmts vf).map Stmt.text) ++ "}\n" := by
  have h1 : "  unsigned long addr = (unsigned long)malloc(1024);\n" = Stmt.text (.alloc 1024) := by decide +kernel
  have h2 (x : String) : "  if (syscall(SYS_arch_prctl, ARCH_SET_GS, addr) < 0)\n" ++ ("    abort();\n" ++ x) =
      Stmt.text .setGs ++ x := by
    rw [← String.append_assoc, show "  if (syscall(SYS_arch_prctl, ARCH_SET_GS, addr) < 0)\n" ++ "    abort();\n" =
      Stmt.text .setGs by decide +kernel]
  have h3 : Stmt.text .next = "  addr += 8;\n" := rfl
  have h4 : Stmt.text .zero = "  *((unsigned long*)addr) = 0;\n" := rfl
  have h5 : Stmt.text .store = "  asm volatile(\"mov %0, %%gs:0;\" : : \"a\"(addr) :);\n" := rfl
  simp only [memRegionInit, h1, String.append_assoc, h2]
  cases vf <;> simp [stmts, String.join, h3, h4, h5, String.append_assoc]

theorem _root_.Verif.C122_meaning (vf prctlOk : Bool) (addr : W) (a0 : W) (s : State) :
    (runAll addr prctlOk (a0, s) (stmts vf)).map (·.2) = initGenerated vf prctlOk addr s := by
  cases vf <;> cases prctlOk <;> rfl

/-! ## What others can do -/

variable {h : Host} {vf : Bool} {v u : Nat}

/-- Each step of the tool is something its user may do. -/
theorem Step.act {n n' : Node} {p p' : Pc} (hs : Step h vf u n p n' p') : n' = n ∨ Act h u n n' := by
  cases hs with
  | rmFile h1 => exact .inr (.files h1)
  | rmDir h1 => exact .inr (.replaceDir h1)
  | rmOther h1 => exact .inr (.replaceOther h1)
  | mkdir => exact .inr .create
  | create h1 => exact .inr (.files h1)
  | empty h1 => exact .inr (.text h1)
  | write h1 => exact .inr (.text h1)
  | _ => exact .inl rfl

/-- Nobody but the owner may write to what a user creates, and `/tmp` is sticky. -/
structure Private (h : Host) (v : Nat) : Prop where
  mode : ∀ u, u ≠ v → h.allows v h.created u = false
  sticky : h.sticky = true

theorem Act.keeps (hp : Private h v) (hu : u ≠ v) {fs : List (List Char × File)} {n : Node}
    (hf : ∀ e ∈ fs, e.2.owner = v ∧ e.2.mode = h.created) (ha : Act h u (.dir v h.created fs) n) :
    n = .dir v h.created fs := by
  generalize e : Node.dir v h.created fs = n0 at ha
  cases ha with
  | create => cases e
  | replaceDir h1 =>
    cases e
    rcases h1 with h1 | h1
    · exact absurd h1 hu
    · rw [hp.sticky] at h1; cases h1
  | replaceOther => cases e
  | files h1 =>
    cases e
    rw [hp.mode u hu] at h1; cases h1
  | @text _ _ _ _ name f _ h1 =>
    cases e
    obtain ⟨k1, k2⟩ := hf (name, f) (by simp)
    rw [k1, k2, hp.mode u hu] at h1; cases h1

/-! ## The invariant -/

/-- The directory of the run, with this file or without. -/
def Holding (h : Host) (v : Nat) (t : Option (List Char)) : Node :=
  .dir v h.created (match t with
    | none => []
    | some t => [(initName, ⟨v, h.created, t⟩)])

/-- How things are for a run of `v` which is at this place. -/
inductive Good (h : Host) (vf : Bool) (v : Nat) : Node → Pc → Prop
  | start {n : Node} : Good h vf v n .start
  | removed {n : Node} : Good h vf v n .removed
  | made : Good h vf v (Holding h v none) .made
  | opened {off : Nat} : h.allows v h.created v = true → Good h vf v (Holding h v (some ((source vf).take off))) (.opened off)
  | closed {t : Option (List Char)} : (∀ x, t = some x → x = source vf) → Good h vf v (Holding h v t) .closed
  | reading : Good h vf v (Holding h v (some (source vf))) (.reading [initName] [])
  | have_ {n : Node} : Good h vf v n (.reading [] [(initName, source vf)])
  | nothing {n : Node} : Good h vf v n (.reading [] [])
  | ended {n : Node} {ret : List Char} {lib : Option (List (List Char × List Char))} :
      (∀ l, lib = some l → Genuine vf l) → Good h vf v n (.ended ret lib)

theorem Act.good (hp : Private h v) (hu : u ≠ v) {n n' : Node} {p : Pc} (hg : Good h vf v n p) (ha : Act h u n n') :
    Good h vf v n' p := by
  have key : ∀ {t}, Act h u (Holding h v t) n' → n' = Holding h v t := fun {t} ha =>
    ha.keeps hp hu (by cases t <;> simp)
  cases hg with
  | start => exact .start
  | removed => exact .removed
  | made => rw [key ha]; exact .made
  | opened h1 => rw [key ha]; exact .opened h1
  | closed h1 => rw [key ha]; exact .closed h1
  | reading => rw [key ha]; exact .reading
  | have_ => exact .have_
  | nothing => exact .nothing
  | ended h1 => exact .ended h1

attribute [local irreducible] source initName

theorem initName_isC : isC initName = true := by unfold initName; decide +kernel

theorem single {α : Type} {a b : α} {l l' : List α} (h : [a] = l ++ b :: l') : l = [] ∧ b = a ∧ l' = [] := by
  cases l with
  | nil => cases h; exact ⟨rfl, rfl, rfl⟩
  | cons c l => cases l <;> cases h

theorem Step.good (hf : h.mayFail = false) {n n' : Node} {p p' : Pc} (hg : Good h vf v n p)
    (hs : Step h vf v n p n' p') : Good h vf v n' p' := by
  cases hg with
  | start => cases hs <;> constructor
  | removed =>
    cases hs with
    | mkdir => exact .made
    | mkdirFails => exact .ended nofun
  | made =>
    generalize e : Holding h v none = n0 at hs
    cases hs with
    | create h1 h2 => cases e; exact .opened (off := 0) h1
    | @empty _ _ fs fs' =>
      cases fs <;> cases e
    | openFails => cases e; exact .closed nofun
  | @opened off ho =>
    generalize e : Holding h v (some ((source vf).take off)) = n0 at hs
    cases hs with
    | @write _ _ fs fs' f _ k h1 =>
      simp only [Holding, Node.dir.injEq] at e
      obtain ⟨rfl, rfl, e⟩ := e
      obtain ⟨rfl, e, rfl⟩ := single e
      cases e
      have : putAt ((source vf).take off) off (((source vf).drop off).take k) = (source vf).take (off + k) := by
        simp only [putAt, List.take_take, Nat.min_self]
        rw [List.drop_eq_nil_of_le (as := (source vf).take off) (by simp only [List.length_take]; omega), List.append_nil, List.take_add]
      simp only [List.nil_append, this]
      exact .opened ho
    | lost h1 =>
      have := h1 _ _ _ _ e.symm (List.mem_singleton.mpr rfl)
      rw [ho] at this; cases this
    | writeFails h1 => rw [hf] at h1; cases h1
    | close h1 =>
      subst e
      refine .closed fun x hx => ?_
      cases hx
      exact List.take_of_length_le h1
  | @closed t h1 =>
    generalize e : Holding h v t = n0 at hs
    cases hs with
    | glob =>
      cases t with
      | none => cases e; exact .nothing
      | some t =>
        obtain rfl := h1 t rfl
        cases e
        simp only [List.map_cons, List.map_nil, List.filter_cons, initName_isC, if_true, List.filter_nil]
        exact .reading
    | globFails => exact .ended nofun
  | reading =>
    generalize e : Holding h v (some (source vf)) = n0 at hs
    cases hs with
    | read h1 =>
      cases e
      simp only [fileIn, if_true, Option.some.injEq] at h1
      subst h1
      exact .have_
    | gccFails => exact .ended nofun
  | have_ =>
    cases hs with
    | compiled => exact .ended fun l hl => by cases hl; unfold Genuine source initName; rfl
    | gccFails => exact .ended nofun
  | nothing =>
    cases hs with
    | compiled h1 => exact absurd rfl h1
    | gccFails => exact .ended nofun
  | ended => cases hs

/-- **C122.** If nobody else may write to what a user creates, `/tmp` is sticky, writes succeed and the user does nothing
else at the same time, then the library is made from the generated code and nothing else, whatever other users do
meanwhile, and whatever was there before.  Missing: these conditions; the claim is false without any one of them. -/
theorem _root_.Verif.C122_genuine_partial {of : Nat → Nat} {users : Nat → Prop} {n : Node} {i : Nat} (hp : Private h (of i))
    (hf : h.mayFail = false) (hof : ∀ j, j ≠ i → of j ≠ of i) (hus : ∀ u, users u → u ≠ of i) {w : World}
    (hw : Reached h vf of users n w) {ret : List Char} {lib : List (List Char × List Char)}
    (he : w.pc i = .ended ret (some lib)) : Genuine vf lib := by
  have : Good h vf (of i) w.node (w.pc i) := by
    clear he
    induction hw with
    | start => exact .start
    | step _ hs ih =>
      cases hs with
      | @tool j n' p hs =>
        by_cases hj : i = j
        · subst hj
          simp only [if_true]
          exact hs.good hf ih
        · simp only [hj, if_false]
          rcases hs.act with e | ha
          · rw [e]; exact ih
          · exact ha.good hp (hof j fun e => hj e.symm) ih
      | user hu ha => exact ha.good hp (hus _ hu) ih
  rw [he] at this
  generalize w.node = n' at this
  cases this with
  | ended h1 => exact h1 _ rfl

/-- **C122, the result.** In any case, `Codegen` returns the name of the library if `gcc` has made one, and the empty string
otherwise. -/
theorem _root_.Verif.C122_result {of : Nat → Nat} {users : Nat → Prop} {n : Node} {i : Nat} {w : World}
    (hw : Reached h vf of users n w) {ret : List Char} {lib : Option (List (List Char × List Char))}
    (he : w.pc i = .ended ret lib) :
    ret = [] ∧ lib = none ∨ ret = "libstack.so".toList ∧ ∃ l, lib = some l ∧ l ≠ [] ∧ h.compiles l := by
  induction hw with
  | start => cases he
  | step _ hs ih =>
    cases hs with
    | @tool j n' p hs =>
      by_cases hj : i = j
      · subst hj
        simp only [if_true] at he
        subst he
        rename_i w0 _
        generalize w0.node = n0 at hs
        generalize w0.pc i = q at hs
        cases hs with
        | mkdirFails => exact .inl ⟨rfl, rfl⟩
        | globFails => exact .inl ⟨rfl, rfl⟩
        | gccFails => exact .inl ⟨rfl, rfl⟩
        | compiled h1 h2 => exact .inr ⟨rfl, _, rfl, h1, h2⟩
      · simp only [hj, if_false] at he
        exact ih he
    | user hu ha => exact ih he

/-- **C122, blocked.** If the name belongs to another user, they need do nothing else: no run of anybody else ever makes a
library. -/
theorem _root_.Verif.C122_blocked {of : Nat → Nat} {o : Nat} (hst : h.sticky = true) (hof : ∀ i, of i ≠ o) {w : World}
    (hw : Reached h vf of (fun _ => False) (.other o) w) {i : Nat} {ret : List Char}
    {lib : Option (List (List Char × List Char))} (he : w.pc i = .ended ret lib) : ret = [] := by
  have : w.node = .other o ∧ ∀ i, w.pc i = .start ∨ w.pc i = .removed ∨ w.pc i = .ended [] none := by
    clear he
    induction hw with
    | start => exact ⟨rfl, fun _ => .inl rfl⟩
    | step _ hs ih =>
      obtain ⟨h1, h2⟩ := ih
      cases hs with
      | @tool j n' p hs =>
        rw [h1] at hs
        have : n' = .other o ∧ (p = .start ∨ p = .removed ∨ p = .ended [] none) := by
          rcases h2 j with e | e | e <;> rw [e] at hs
          · cases hs with
            | rmOther h3 =>
              rcases h3 with h3 | h3
              · exact absurd h3 (hof j)
              · rw [hst] at h3; cases h3
            | rmEnd => exact ⟨rfl, .inr (.inl rfl)⟩
          · cases hs with
            | mkdirFails => exact ⟨rfl, .inr (.inr rfl)⟩
          · cases hs
        refine ⟨this.1, fun k => ?_⟩
        by_cases hk : k = j
        · simp only [hk, if_true]; exact this.2
        · simp only [hk, if_false]; exact h2 k
      | user hu => exact hu.elim
  rcases this.2 i with e | e | e <;> rw [e] at he <;> cases he
  rfl

/-- **C122, locked out.** If the umask takes the permission to write away from the users themselves, `Codegen` makes a directory
into which it cannot write the file, does not notice, and never makes a library. -/
theorem _root_.Verif.C122_locked {of : Nat → Nat} {v : Nat} (hum : h.umask.owner = true) (hof : ∀ i, of i = v) {w : World}
    (hw : Reached h vf of (fun _ => False) .absent w) {i : Nat} {ret : List Char}
    {lib : Option (List (List Char × List Char))} (he : w.pc i = .ended ret lib) : ret = [] := by
  have hno : h.allows v h.created v = false := by simp [Host.allows, Host.created, hum]
  have : (w.node = .absent ∨ w.node = .dir v h.created []) ∧ ∀ i, w.pc i = .start ∨ w.pc i = .removed ∨ w.pc i = .made ∨
      w.pc i = .closed ∨ w.pc i = .reading [] [] ∨ w.pc i = .ended [] none := by
    clear he
    induction hw with
    | start => exact ⟨.inl rfl, fun _ => .inl rfl⟩
    | step _ hs ih =>
      obtain ⟨h1, h2⟩ := ih
      cases hs with
      | @tool j n' p hs =>
        rw [hof j] at hs
        have : (n' = .absent ∨ n' = .dir v h.created []) ∧ (p = .start ∨ p = .removed ∨ p = .made ∨
            p = .closed ∨ p = .reading [] [] ∨ p = .ended [] none) := by
          have h3 := h2 j
          rename_i w0 _
          generalize w0.node = n0 at hs h1
          generalize w0.pc j = q at hs h3
          rcases h3 with e | e | e | e | e | e <;> subst e <;> rcases h1 with e | e <;> subst e
          · cases hs with
            | rmEnd => simp
          · generalize hd : Node.dir v h.created [] = n0 at hs
            cases hs with
            | rmFile => injection hd with _ _ e; simp at e
            | rmDir => simp
            | rmOther => cases hd
            | rmEnd => subst hd; simp
          · cases hs with
            | mkdir => simp
            | mkdirFails => simp
          · generalize hd : Node.dir v h.created [] = n0 at hs
            cases hs with
            | mkdir => cases hd
            | mkdirFails => subst hd; simp
          · cases hs with
            | openFails => simp
          · generalize hd : Node.dir v h.created [] = n0 at hs
            cases hs with
            | create h4 => cases hd; rw [hno] at h4; cases h4
            | empty => injection hd with _ _ e; simp at e
            | openFails => subst hd; simp
          · cases hs with
            | globFails => simp
          · generalize hd : Node.dir v h.created [] = n0 at hs
            cases hs with
            | glob => cases hd; simp
            | globFails => subst hd; simp
          · cases hs with
            | compiled h4 => exact absurd rfl h4
            | gccFails => simp
          · generalize hd : Node.dir v h.created [] = n0 at hs
            cases hs with
            | compiled h4 => exact absurd rfl h4
            | gccFails => subst hd; simp
          · cases hs
          · generalize hd : Node.dir v h.created [] = n0 at hs
            cases hs
        refine ⟨this.1, fun k => ?_⟩
        by_cases hk : k = j
        · simp only [hk, if_true]; exact this.2
        · simp only [hk, if_false]; exact h2 k
      | user hu => exact hu.elim
  rcases this.2 i with e | e | e | e | e | e <;> rw [e] at he <;> cases he
  rfl

/-! ## Executions -/

section
variable {of : Nat → Nat} {users : Nat → Prop} {n0 n n' : Node} {pc : Nat → Pc} {i : Nat} {p : Pc}

theorem Reached.run (hw : Reached h vf of users n0 ⟨n, pc⟩) (hs : Step h vf (of i) n (pc i) n' p) :
    Reached h vf of users n0 ⟨n', fun j => if j = i then p else pc j⟩ := hw.step (.tool (w := ⟨n, pc⟩) hs)

theorem Reached.by_ (hw : Reached h vf of users n0 ⟨n, pc⟩) {u : Nat} (hu : users u) (ha : Act h u n n') :
    Reached h vf of users n0 ⟨n', pc⟩ := hw.step (.user (w := ⟨n, pc⟩) hu ha)

theorem allows_self (hu : h.umask.owner = false) : h.allows v h.created v = true := by
  simp [Host.allows, Host.created, hu]

/-- The first run of the tool has come to this place. -/
def only (p : Pc) : Nat → Pc := fun j => if j = 0 then p else .start

theorem only_set (p q : Pc) : (fun j => if j = 0 then q else only p j) = only q := by
  funext j
  by_cases hj : j = 0 <;> simp [only, hj]

theorem Reached.first {q : Pc} (hw : Reached h vf of users n0 ⟨n, only p⟩) (hs : Step h vf (of 0) n p n' q) :
    Reached h vf of users n0 ⟨n', only q⟩ := by
  have := hw.run (i := 0) hs
  rwa [only_set] at this

/-- The file has been opened. -/
theorem Reached.opens (hu : h.umask.owner = false) (hw : Reached h vf of users n0 ⟨.absent, only .start⟩) :
    Reached h vf of users n0 ⟨Holding h (of 0) (some []), only (.opened 0)⟩ :=
  ((hw.first .rmEnd).first .mkdir).first (.create (allows_self hu) rfl)

/-- The file has been written. -/
theorem Reached.closes (hu : h.umask.owner = false) (hw : Reached h vf of users n0 ⟨.absent, only .start⟩) :
    Reached h vf of users n0 ⟨Holding h (of 0) (some (source vf)), only .closed⟩ := by
  have r1 := (hw.opens hu).first (.write (fs := []) (fs' := []) (off := 0)
    (k := (source vf).length) (allows_self hu))
  have e : putAt [] 0 (((source vf).drop 0).take (source vf).length) = source vf := by
    simp [putAt, List.take_of_length_le]
  simp only [e] at r1
  exact r1.first (.close (by omega))

theorem reached_only (h : Host) (vf : Bool) (of : Nat → Nat) (users : Nat → Prop) (n : Node) :
    Reached h vf of users n ⟨n, only .start⟩ := by
  have : only .start = fun _ => Pc.start := by funext j; simp [only]
  rw [this]; exact .start

/-- The shell looks at the file and perhaps others. -/
theorem Reached.globs {o : Nat} {m : Mode} {fs : List (List Char × File)} {names : List (List Char)}
    (hw : Reached h vf of users n0 ⟨.dir o m fs, only .closed⟩) (hn : (fs.map (·.1)).filter isC = names) :
    Reached h vf of users n0 ⟨.dir o m fs, only (.reading names [])⟩ := hn ▸ hw.first .glob

end

/-- A host: what `umask` takes away is no more than what groups and others may write. -/
def hostWith (group others sticky mayFail : Bool) (compiles : List (List Char × List Char) → Prop) : Host :=
  ⟨⟨false, group, others⟩, fun _ _ => false, sticky, mayFail, compiles⟩

theorem hostWith_private (group mayFail : Bool) (compiles : List (List Char × List Char) → Prop) (v : Nat) :
    Private (hostWith group true true mayFail compiles) v :=
  ⟨fun u hu => by simp [Host.allows, hu, hostWith, Host.created], rfl⟩

theorem genuine_source (vf : Bool) : Genuine vf [(initName, source vf)] := by
  unfold Genuine source initName; rfl

/-- Example for `C122_genuine_partial`: another user, who has been there first, removes what they have put there, and then the tool
makes the library. -/
example (vf : Bool) : ∃ w, Reached (hostWith true true true false fun _ => True) vf (fun _ => 1) (· = 2) (.other 2) w ∧
    ∃ lib, w.pc 0 = .ended "libstack.so".toList (some lib) ∧ Genuine vf lib := by
  have r1 := (reached_only (hostWith true true true false fun _ => True) vf (fun _ => 1) (· = 2) (.other 2)).by_ rfl
    (.replaceOther (n := .absent) (.inl rfl))
  have r2 := (r1.closes rfl).globs (names := [initName])
    (by simp only [List.map_cons, List.map_nil, List.filter_cons, initName_isC, if_true, List.filter_nil])
  have r3 := r2.first (.read (by simp [fileIn]; rfl))
  exact ⟨_, r3.first (.compiled (by simp) trivial), _, rfl, genuine_source vf⟩

/-- The name of another file. -/
def evilName : List Char := "a.c".toList

theorem evilName_isC : isC evilName = true ∧ isC ".a.c".toList = false ∧ isC "a.h".toList = false := by decide +kernel

theorem not_genuine {vf : Bool} {t : List Char} {l : List (List Char × List Char)} :
    ¬ Genuine vf ((evilName, t) :: l) := by
  intro h
  have := congrArg (fun l => l.head?.map fun e => e.1.head?) h
  revert this
  simp only [List.head?_cons, Option.map_some]
  decide +kernel

/-- **C122, false if others may write.** With a `umask` of 0, any other user can have any code compiled into the library: the
directory has the permissions 0777, and `gcc` compiles everything in it. -/
theorem _root_.Verif.C122_refuted_umask (vf : Bool) (t : List Char) : ∃ w,
    Reached (hostWith false false true false fun _ => True) vf (fun _ => 1) (· = 2) .absent w ∧
    ∃ lib, w.pc 0 = .ended "libstack.so".toList (some lib) ∧ (evilName, t) ∈ lib ∧ ¬ Genuine vf lib := by
  have r1 := ((reached_only (hostWith false false true false fun _ => True) vf (fun _ => 1) (· = 2) .absent).closes
    rfl).by_ rfl (.files (fs' := [(evilName, ⟨2, ⟨true, false, false⟩, t⟩),
      (initName, ⟨1, ⟨true, true, true⟩, source vf⟩)]) rfl)
  have r2 := r1.globs (names := [evilName, initName]) (by
    simp only [List.map_cons, List.map_nil, List.filter_cons, initName_isC, evilName_isC.1, if_true, List.filter_nil])
  have r3 := r2.first (.read (f := ⟨2, ⟨true, false, false⟩, t⟩) (by simp [fileIn]))
  have hn : evilName ≠ initName := by unfold initName; decide +kernel
  have r4 := r3.first (.read (f := ⟨1, ⟨true, true, true⟩, source vf⟩) (by simp [fileIn, hn]))
  exact ⟨_, r4.first (.compiled (by simp) trivial), _, rfl, by simp, not_genuine⟩

/-- **C122, false if `/tmp` is not sticky.** Another user can put a directory of their own in the place of that of the tool. -/
theorem _root_.Verif.C122_refuted_sticky (vf : Bool) (t : List Char) : ∃ w,
    Reached (hostWith true true false false fun _ => True) vf (fun _ => 1) (· = 2) .absent w ∧
    ∃ lib, w.pc 0 = .ended "libstack.so".toList (some lib) ∧ lib = [(evilName, t)] ∧ ¬ Genuine vf lib := by
  have r1 := ((reached_only (hostWith true true false false fun _ => True) vf (fun _ => 1) (· = 2) .absent).closes
    rfl).by_ rfl (.replaceDir (n := .dir 2 ⟨true, false, false⟩ [(evilName, ⟨2, ⟨true, false, false⟩, t⟩)]) (.inr rfl))
  have r2 := r1.globs (names := [evilName]) (by
    simp only [List.map_cons, List.map_nil, List.filter_cons, evilName_isC.1, if_true, List.filter_nil])
  have r3 := r2.first (.read (f := ⟨2, ⟨true, false, false⟩, t⟩) (by simp [fileIn]))
  exact ⟨_, r3.first (.compiled (by simp) trivial), _, rfl, rfl, not_genuine⟩

theorem not_genuine_empty {vf : Bool} : ¬ Genuine vf [(initName, [])] := by
  intro h
  rw [Genuine, C122_text, String.toList_append] at h
  have := (List.append_eq_nil_iff.mp (congrArg Prod.snd (List.cons.inj h).1).symm).2
  revert this
  decide

/-- **C122, false if a write fails.** If the disk is full, the tool has an empty file compiled, which `gcc` accepts, and returns the name
of a library which initialises nothing. -/
theorem _root_.Verif.C122_refuted_full (vf : Bool) : ∃ w,
    Reached (hostWith true true true true fun _ => True) vf (fun _ => 1) (fun _ => False) .absent w ∧
    ∃ lib, w.pc 0 = .ended "libstack.so".toList (some lib) ∧ lib = [(initName, [])] ∧ ¬ Genuine vf lib := by
  have r1 := ((reached_only (hostWith true true true true fun _ => True) vf (fun _ => 1) (fun _ => False) .absent).opens
    rfl).first (.writeFails rfl)
  have r2 := r1.globs (names := [initName])
    (by simp only [List.map_cons, List.map_nil, List.filter_cons, initName_isC, if_true, List.filter_nil])
  have r3 := r2.first (.read (f := ⟨1, ⟨true, false, false⟩, []⟩) (by simp [fileIn]; rfl))
  exact ⟨_, r3.first (.compiled (by simp) trivial), _, rfl, rfl, not_genuine_empty⟩

/-- **C122, false if the tool runs twice.** Of two runs of the same user, nobody else doing anything, the first may read the file when
the second has emptied it. -/
theorem _root_.Verif.C122_refuted_twice (vf : Bool) : ∃ w,
    Reached (hostWith true true true false fun _ => True) vf (fun _ => 1) (fun _ => False) .absent w ∧
    ∃ lib, w.pc 0 = .ended "libstack.so".toList (some lib) ∧ lib = [(initName, [])] ∧ ¬ Genuine vf lib := by
  have r1 := (reached_only (hostWith true true true false fun _ => True) vf (fun _ => 1) (fun _ => False) .absent).closes rfl
  have r2 := r1.globs (names := [initName])
    (by simp only [List.map_cons, List.map_nil, List.filter_cons, initName_isC, if_true, List.filter_nil])
  have r3 := r2.run (i := 1) (.rmFile (fs := []) (fs' := []) rfl)
  have r4 := r3.run (i := 1) (.rmDir (.inl rfl))
  have r5 := r4.run (i := 1) .mkdir
  have r6 := r5.run (i := 1) (.create rfl rfl)
  have r7 := r6.run (i := 0) (.read (f := ⟨1, ⟨true, false, false⟩, []⟩) (by simp [fileIn]; rfl))
  have r8 := r7.run (i := 0) (.compiled (by simp) trivial)
  exact ⟨_, r8, _, rfl, rfl, not_genuine_empty⟩

/-- Example for `C122_locked`: the directory is made, nothing can be put there, and `gcc` gets no file. -/
example (vf : Bool) : ∃ w, Reached ⟨⟨true, true, true⟩, fun _ _ => false, true, false, fun _ => True⟩ vf (fun _ => 1)
    (fun _ => False) .absent w ∧ w.node = .dir 1 ⟨false, false, false⟩ [] ∧ w.pc 0 = .ended [] none := by
  have r1 := (reached_only ⟨⟨true, true, true⟩, fun _ _ => false, true, false, fun _ => True⟩ vf (fun _ => 1)
    (fun _ => False) .absent).first .rmEnd
  have r2 := ((((r1.first .mkdir).first .openFails).first .glob).first .gccFails)
  exact ⟨_, r2, rfl, rfl⟩

end Verif.Codegen
