import Verif.ImageCores
import Verif.Props.ImageTeam
import Verif.Props.RefineCores

/-! # C124: instrumented programs with several threads in memory do what the originals do on x86 -/

namespace Verif

variable {κ L : Type} {I : Image κ}

/-- The bytes write where the instruction of the list does. -/
theorem Seated.stores {P : Guest κ L} {k k' : κ} {x : W} {w r : Code} {ins : Instr} (h : Seated I P k x w (ins :: r) k')
    (hb : ∀ l, ins ≠ .bind l) (s : State) : storesAt I.text x s = Wr.stores ins s := by
  obtain ⟨_, _, _, a, n, final, pos, _, _, rfl, _, hp⟩ := h
  cases hp with
  | plain h1 => simp only [storesAt, h1]
  | je h1 => simp only [storesAt, h1]; rfl
  | jne h1 => simp only [storesAt, h1]; rfl
  | jmp h1 => simp only [storesAt, h1]; rfl
  | bind => exact absurd rfl (hb _)
  | illegal h1 => simp only [storesAt, h1]; rfl

variable {ι : Type} [DecidableEq ι] {P : CoreGuest κ L} {N N' : Cores ι (Footing κ)} {A A' : Cores ι (Stand κ)} {M0 : Cores ι κ}
  {i : ι}

/-- The same moment of the two executions. -/
structure CoreRel (I : Image κ) (P : CoreGuest κ L) (N : Cores ι (Footing κ)) (A : Cores ι (Stand κ)) : Prop where
  mem : N.mem = A.mem
  buf : N.buf = A.buf
  cpu : N.cpu = A.cpu
  foot : ∀ i, FootRel I P.sites (N.pos i) (A.pos i)

omit [DecidableEq ι] in
theorem CoreRel.view_eq (h : CoreRel I P N A) (i : ι) : N.view i = A.view i := by
  simp only [Cores.view, h.mem, h.buf]

omit [DecidableEq ι] in
theorem CoreRel.at_eq (h : CoreRel I P N A) (i : ι) : N.at_ i = A.at_ i := by
  simp only [Cores.at_, h.view_eq, h.cpu]

theorem Cores.pos_put (N : Cores ι κ) (i : ι) (p : κ) (c : Cpu) (ws : List (W × Byte)) : (N.put i p c ws).pos i = p := by
  simp [Cores.put]

theorem CoreRel.put (h : CoreRel I P N A) {p : Footing κ} {q : Stand κ} (hp : FootRel I P.sites p q) (c : Cpu)
    (ws : List (W × Byte)) : CoreRel I P (N.put i p c ws) (A.put i q c ws) where
  mem := h.mem
  buf := by simp only [Cores.put, h.buf]
  cpu := by simp only [Cores.put, h.cpu]
  foot j := by
    by_cases e : j = i
    · subst e; simpa [Cores.put] using hp
    · simpa [Cores.put, e] using h.foot j

theorem CoreRel.sync (h : CoreRel I P N A) {p : Footing κ} {q : Stand κ} (hp : FootRel I P.sites p q) (c : Cpu)
    (ws : List (W × Byte)) : CoreRel I P (N.sync i p c ws) (A.sync i q c ws) where
  mem := by simp only [Cores.sync, h.mem]
  buf := h.buf
  cpu := by simp only [Cores.sync, h.cpu]
  foot j := by
    by_cases e : j = i
    · subst e; simpa [Cores.sync] using hp
    · simpa [Cores.sync, e] using h.foot j

theorem CoreRel.drain (h : CoreRel I P N A) (w : W × Byte) (ws : List (W × Byte)) :
    CoreRel I P (N.drain i w ws) (A.drain i w ws) where
  mem := by simp only [Cores.drain, h.mem]
  buf := by simp only [Cores.drain, h.buf]
  cpu := h.cpu
  foot := h.foot

theorem Cores.put_same (N : Cores ι κ) (i : ι) : N.put i (N.pos i) (N.cpu i) [] = N := by
  cases N
  simp only [Cores.put, Cores.mk.injEq, true_and, List.append_nil]
  refine ⟨?_, ?_, ?_⟩ <;> (funext j; split <;> simp_all)

theorem Cores.put_put (N : Cores ι κ) (i : ι) (p q : κ) :
    (N.put i p (N.cpu i) []).put i q ((N.put i p (N.cpu i) []).cpu i) [] = N.put i q (N.cpu i) [] := by
  simp only [Cores.put, Cores.mk.injEq, true_and, List.append_nil]
  refine ⟨?_, ?_, ?_⟩ <;> (funext j; split <;> simp_all)

theorem CoreRel.stay (h : CoreRel I P N A) {q : Stand κ} (hp : FootRel I P.sites (N.pos i) q) :
    CoreRel I P N (A.put i q (A.cpu i) []) := by
  have := h.put (i := i) hp (N.cpu i) []
  rwa [Cores.put_same, h.cpu] at this

omit [DecidableEq ι] in
theorem CoreRel.abreast (h : CoreRel I P N A) : CoresAbreast I N A where
  mem := h.mem
  buf := h.buf
  cpu := h.cpu
  point j := (h.foot j).point
  own j k := by
    have := h.foot j
    constructor
    · intro e; rw [e] at this; generalize A.pos j = q at this; cases this; rfl
    · intro e; rw [e] at this; generalize N.pos j = p at this; cases this; rfl

/-! ## One step -/

/-- A step in the lists is one in memory or none. -/
theorem CoreRel.forward (hI : I.Of P.sites) (h : CoreRel I P N A) {ls : List L} (hs : ArmedMove P A i ls (some A')) :
    (ls = [] ∧ CoreRel I P N A') ∨ ∃ N', ByteMove P I N i ls (some N') ∧ CoreRel I P N' A' := by
  have hf := h.foot i
  generalize hc : some A' = c at hs
  cases hs with
  | @own k k' l c ws hp hl hst =>
    cases hc
    rw [hp] at hf
    generalize hq : N.pos i = q at hf
    cases hf
    exact .inr ⟨_, .own hq hl (by rw [h.at_eq]; exact hst), h.put (.own k') c ws⟩
  | @locked k k' l c ws hp hl hb hst =>
    cases hc
    rw [hp] at hf
    generalize hq : N.pos i = q at hf
    cases hf
    exact .inr ⟨_, .locked hq hl (by rw [h.buf]; exact hb) (by rw [h.at_eq]; exact hst), h.sync (.own k') c ws⟩
  | @enter k k' c hp hst =>
    cases hc
    rw [hp] at hf
    generalize hq : N.pos i = q at hf
    cases hf
    obtain ⟨a, n, hi, hseat⟩ := Seated.begin hI (P := P.sites) hst
    refine .inr ⟨_, .enter hq hi, ?_⟩
    rw [h.cpu]
    exact h.put (.inside hseat) _ _
  | @instr w r r' ins k' s' ws hp hg hw hws =>
    cases hc
    rw [hp] at hf
    generalize hq : N.pos i = q at hf
    cases hf with
    | @inside k _ x _ _ hseat =>
    by_cases hbind : ∃ l, ins = .bind l
    · obtain ⟨l, rfl⟩ := hbind
      have hn : ws = [] := by
        cases ws with
        | nil => rfl
        | cons w ws => obtain ⟨p, hp, _⟩ := hws w (List.mem_cons_self ..); cases hp
      subst hn
      rcases hseat.go hg with ⟨rfl, _, hs'⟩ | ⟨a, n, x', hi, hin, hx, hs'⟩
      · exact .inl ⟨rfl, h.stay (by rw [hq]; exact .inside hs')⟩
      · cases hg with
        | next e =>
          cases e
          refine .inr ⟨_, .next hq hi hin (by rw [h.at_eq]; exact hx) (ws := []) (by rw [h.view_eq]; exact hw) nofun, ?_⟩
          exact h.put (.inside hs') _ _
        | goto e _ => cases e
    · rcases hseat.go hg with ⟨_, ⟨l, e⟩, _⟩ | ⟨a, n, x', hi, hin, hx, hs'⟩
      · cases e; exact absurd ⟨l, rfl⟩ hbind
      · refine .inr ⟨_, .next hq hi hin (by rw [h.at_eq]; exact hx) (by rw [h.view_eq]; exact hw) ?_,
          h.put (.inside hs') _ ws⟩
        rw [hseat.stores (fun l e => hbind ⟨l, e⟩), h.at_eq]
        exact hws
  | @leave w k' hp =>
    cases hc
    rw [hp] at hf
    generalize hq : N.pos i = q at hf
    cases hf with
    | @inside k _ x _ _ hseat =>
    obtain ⟨a, n, hi, rfl⟩ := hseat.fin
    refine .inr ⟨_, .leave hq hi, ?_⟩
    rw [h.cpu]
    exact h.put (.own k') _ _
  | trap => cases hc
  | @drain w ws hb =>
    cases hc
    exact .inr ⟨_, .drain (by rw [h.buf]; exact hb), h.drain w ws⟩

theorem CoreRel.forward_trap (hu : I.Undefined P.sites) (h : CoreRel I P N A) {ls : List L} (hs : ArmedMove P A i ls none) :
    ls = [] ∧ ByteMove P I N i [] none := by
  have hf := h.foot i
  generalize hc : none = c at hs
  cases hs with
  | @trap w r ins k' s' hp hx =>
    rw [hp] at hf
    generalize hq : N.pos i = q at hf
    cases hf with
    | @inside k _ x _ _ hseat =>
    obtain ⟨a, n, hi, hin, hx⟩ := hseat.trap hu hx
    exact ⟨rfl, .die hq hi hin (by rw [h.at_eq]; exact hx)⟩
  | _ => cases hc

theorem Skips.only {r r' w : Code} {k' : κ} (h : Skips r r') :
    ∀ {A : Cores ι (Stand κ)}, A.pos i = .busy w r k' → OnlyCore P i A (A.put i (.busy w r' k') (A.cpu i) []) := by
  induction h with
  | refl =>
    intro A hp
    rw [← hp, Cores.put_same]
    exact .refl A
  | @bind l k k1 _ ih =>
    intro A hp
    have h1 : ArmedMove P A i [] (some (A.put i (.busy w k k') (A.cpu i) [])) :=
      .instr (s' := A.at_ i) hp (.next rfl) rfl nofun
    have h2 := ih (Cores.pos_put A i (.busy w k k') (A.cpu i) [])
    rw [Cores.put_put] at h2
    exact .step h1 rfl h2

/-- A step in memory is one in the lists, after labels. -/
theorem CoreRel.backward (hI : I.Of P.sites) (h : CoreRel I P N A) {ls : List L} {c : Option (Cores ι (Footing κ))}
    (hs : ByteMove P I N i ls c) :
    ∃ A1, OnlyCore P i A A1 ∧
      ((∃ A' N', ArmedMove P A1 i ls (some A') ∧ c = some N' ∧ CoreRel I P N' A') ∨
       (ArmedMove P A1 i ls none ∧ (I.Undefined P.sites → c = none))) := by
  have hf := h.foot i
  by_cases hdr : ∃ w ws, N.buf i = w :: ws ∧ ls = [] ∧ c = some (N.drain i w ws)
  · obtain ⟨w, ws, hb, rfl, rfl⟩ := hdr
    exact ⟨A, .refl A, .inl ⟨_, _, .drain (by rw [← h.buf]; exact hb), rfl, h.drain w ws⟩⟩
  cases hq : N.pos i with
  | own k =>
    rw [hq] at hf
    generalize ha : A.pos i = q at hf
    cases hf
    refine ⟨A, .refl A, .inl ?_⟩
    cases hs with
    | own hp hl hst =>
      rw [hq] at hp; cases hp
      exact ⟨_, _, .own ha hl (by rw [← h.at_eq]; exact hst), rfl, h.put (.own _) _ _⟩
    | locked hp hl hb hst =>
      rw [hq] at hp; cases hp
      exact ⟨_, _, .locked ha hl (by rw [← h.buf]; exact hb) (by rw [← h.at_eq]; exact hst), rfl, h.sync (.own _) _ _⟩
    | @enter _ k' a n hp hi =>
      rw [hq] at hp; cases hp
      cases hp : P.site k with
      | none => rw [hI.none k hp] at hi; cases hi
      | some y =>
        obtain ⟨a', n', hi', hseat⟩ := Seated.begin (k' := y.2) hI hp
        rw [hi] at hi'
        cases hi'
        refine ⟨_, _, .enter ha hp, rfl, ?_⟩
        rw [h.cpu]
        exact h.put (.inside hseat) _ _
    | next hp => rw [hq] at hp; cases hp
    | leave hp => rw [hq] at hp; cases hp
    | die hp => rw [hq] at hp; cases hp
    | drain hb => exact absurd ⟨_, _, hb, rfl, rfl⟩ hdr
  | inside k x =>
    rw [hq] at hf
    generalize ha : A.pos i = q at hf
    cases hf with
    | @inside _ k' _ w r hseat =>
    obtain ⟨a, n, hi, hn, hb⟩ := hseat.back (A.at_ i)
    rcases hb with ⟨rfl, hsk⟩ | ⟨hin, ins, r1, hnb, hsk, hseat1, hb⟩
    · -- behind the bytes
      have hal := hsk.only (P := P) ha
      generalize hA1 : A.put i (.busy w [] k') (A.cpu i) [] = A1 at hal
      have p1 : A1.pos i = .busy w [] k' := by rw [← hA1, Cores.pos_put]
      have r1 : CoreRel I P N A1 := by
        rw [← hA1]
        refine h.stay ?_
        rw [hq]
        obtain ⟨hs0, _, hj, a1, n1, final, pos, hi1, hn1, e, hw, hp⟩ := hseat
        rw [hi] at hi1
        cases hi1
        have : n = pos := ofNat_inj hn (by have := hp.le; omega) e
        subst this
        exact .inside ⟨hs0, List.nil_suffix, hj, a, _, final, _, hi, hn, rfl, hw, .nil⟩
      refine ⟨A1, hal, .inl ?_⟩
      cases hs with
      | own hp => rw [hq] at hp; cases hp
      | locked hp => rw [hq] at hp; cases hp
      | enter hp => rw [hq] at hp; cases hp
      | drain hb => exact absurd ⟨_, _, hb, rfl, rfl⟩ hdr
      | next hp e i' =>
        rw [hq] at hp
        simp only [Footing.inside.injEq] at hp
        obtain ⟨rfl, rfl⟩ := hp
        rw [hi] at e; cases e; exact absurd i' (not_inside_end hn)
      | die hp e i' =>
        rw [hq] at hp
        simp only [Footing.inside.injEq] at hp
        obtain ⟨rfl, rfl⟩ := hp
        rw [hi] at e; cases e; exact absurd i' (not_inside_end hn)
      | leave hp e =>
        rw [hq] at hp
        simp only [Footing.inside.injEq] at hp
        obtain ⟨rfl, _⟩ := hp
        rw [hi] at e
        cases e
        refine ⟨_, _, .leave p1, rfl, ?_⟩
        rw [r1.cpu]
        exact r1.put (.own k') _ _
    · have hal := hsk.only (P := P) ha
      generalize hA1 : A.put i (.busy w (ins :: r1) k') (A.cpu i) [] = A1 at hal
      have p1 : A1.pos i = .busy w (ins :: r1) k' := by rw [← hA1, Cores.pos_put]
      have hr1 : CoreRel I P N A1 := by
        rw [← hA1]
        refine h.stay ?_
        rw [hq]
        exact .inside hseat1
      have e1 : A1.at_ i = A.at_ i := by rw [← hr1.at_eq, h.at_eq]
      refine ⟨A1, hal, ?_⟩
      rcases hb with rfl | ⟨x', s', r', hg, hx, hseat'⟩
      · refine .inr ?_
        have hls : ls = [] := by
          cases hs with
          | own hp => rw [hq] at hp; cases hp
          | locked hp => rw [hq] at hp; cases hp
          | _ => rfl
        subst hls
        refine ⟨.trap p1 rfl, fun hu => ?_⟩
        obtain ⟨a1, n1, hi1, _, hx⟩ := hseat1.trap hu (ins := .illegal) (s := A.at_ i) rfl
        cases hs with
        | enter hp => rw [hq] at hp; cases hp
        | drain hb => exact absurd ⟨_, _, hb, rfl, rfl⟩ hdr
        | next hp _ _ e =>
          rw [hq] at hp
          simp only [Footing.inside.injEq] at hp
          obtain ⟨rfl, rfl⟩ := hp
          rw [h.at_eq, hx] at e; cases e
        | leave hp e =>
          rw [hq] at hp
          simp only [Footing.inside.injEq] at hp
          obtain ⟨rfl, rfl⟩ := hp
          rw [hi] at e; cases e; exact absurd hin (not_inside_end hn)
        | die => rfl
      · refine .inl ?_
        cases hs with
        | own hp => rw [hq] at hp; cases hp
        | locked hp => rw [hq] at hp; cases hp
        | enter hp => rw [hq] at hp; cases hp
        | drain hb => exact absurd ⟨_, _, hb, rfl, rfl⟩ hdr
        | next hp _ _ e hw hws =>
          rw [hq] at hp
          simp only [Footing.inside.injEq] at hp
          obtain ⟨rfl, rfl⟩ := hp
          rw [h.at_eq, hx] at e
          cases e
          refine ⟨_, _, .instr p1 (by rw [e1]; exact hg) (by rw [← hr1.view_eq]; exact hw) ?_, rfl, hr1.put (.inside hseat') _ _⟩
          intro b hb
          obtain ⟨p, hp, hr⟩ := hws b hb
          rw [hseat1.stores hnb, hr1.at_eq] at hp
          exact ⟨p, hp, hr⟩
        | leave hp e =>
          rw [hq] at hp
          simp only [Footing.inside.injEq] at hp
          obtain ⟨rfl, rfl⟩ := hp
          rw [hi] at e; cases e; exact absurd hin (not_inside_end hn)
        | die hp _ _ e =>
          rw [hq] at hp
          simp only [Footing.inside.injEq] at hp
          obtain ⟨rfl, rfl⟩ := hp
          rw [h.at_eq, hx] at e; cases e

/-! ## Executions -/

omit [DecidableEq ι] in
theorem CoreRel.start : CoreRel I P M0.load M0.arm := ⟨rfl, rfl, rfl, fun i => .own (M0.pos i)⟩

theorem OnlyCore.bytes (hI : I.Of P.sites) (h : OnlyCore P i A A') :
    ∀ {N : Cores ι (Footing κ)}, CoreRel I P N A → ∃ N', OnlyByte P I i N N' ∧ CoreRel I P N' A' := by
  induction h with
  | refl => exact fun {N} h => ⟨N, .refl N, h⟩
  | step hs hm _ ih =>
    intro N h
    rcases h.forward hI hs with ⟨_, h1⟩ | ⟨N1, h1, h2⟩
    · exact ih h1
    · obtain ⟨N', h4, h5⟩ := ih h2
      exact ⟨N', .step h1 (by rw [h2.mem, h.mem, hm]) h4, h5⟩

theorem cores_forward (hI : I.Of P.sites) {tr : List (ι × L)} {c : Option (Cores ι (Stand κ))} (h : ArmedCores P M0 tr c) :
    ∀ A, c = some A → ∃ N, ByteCores P I M0 tr (some N) ∧ CoreRel I P N A := by
  induction h with
  | start => intro A e; cases e; exact ⟨_, .start, .start⟩
  | @step tr A i ls c _ hs ih =>
    intro A' e
    subst e
    obtain ⟨N, h1, h2⟩ := ih A rfl
    rcases h2.forward hI hs with ⟨rfl, h3⟩ | ⟨N1, h3, h5⟩
    · exact ⟨N, by rw [List.map_nil, List.append_nil]; exact h1, h3⟩
    · exact ⟨N1, h1.step h3, h5⟩

theorem cores_backward (hI : I.Of P.sites) (hd : I.Undefined P.sites ∨ ∀ tr, ¬ ArmedCores P M0 tr none) {tr : List (ι × L)}
    {c : Option (Cores ι (Footing κ))} (h : ByteCores P I M0 tr c) :
    (∀ N, c = some N → ∃ A, ArmedCores P M0 tr (some A) ∧ CoreRel I P N A) ∧ (c = none → ArmedCores P M0 tr none) := by
  induction h with
  | start => exact ⟨fun N e => by cases e; exact ⟨_, .start, .start⟩, nofun⟩
  | @step tr N i ls d _ hs ih =>
    obtain ⟨A, h1, h2⟩ := ih.1 N rfl
    obtain ⟨A1, h3, h4⟩ := h2.backward hI hs
    have h5 := h3.run h1
    rcases h4 with ⟨A', N', h6, rfl, h8⟩ | ⟨h6, h7⟩
    · exact ⟨fun N e => by cases e; exact ⟨A', h5.step h6, h8⟩, nofun⟩
    · rcases hd with hu | hn
      · rw [h7 hu]
        exact ⟨nofun, fun _ => h5.step h6⟩
      · exact absurd (h5.step h6) (hn _)

/-- **C124, same executions.**  If `0x62` is undefined wherever it stands (C93), the executions of the threads in
memory on a processor with store buffers are those in which snippets are lists of instructions, whatever the threads do. -/
theorem C124_same_runs (hI : I.Of P.sites) (hu : I.Undefined P.sites) {tr : List (ι × L)} :
    (∀ A, ArmedCores P M0 tr (some A) → ∃ N, ByteCores P I M0 tr (some N) ∧ CoresAbreast I N A) ∧
    (∀ N, ByteCores P I M0 tr (some N) → ∃ A, ArmedCores P M0 tr (some A) ∧ CoresAbreast I N A) ∧
    (ByteCores P I M0 tr none ↔ ArmedCores P M0 tr none) := by
  refine ⟨fun A h => ?_, fun N h => ?_, fun h => (cores_backward hI (.inl hu) h).2 rfl, fun h => ?_⟩
  · obtain ⟨N, h1, h2⟩ := cores_forward hI h A rfl
    exact ⟨N, h1, h2.abreast⟩
  · obtain ⟨A, h1, h2⟩ := (cores_backward hI (.inl hu) h).1 N rfl
    exact ⟨A, h1, h2.abreast⟩
  · generalize hc : none = c at h
    cases h with
    | start => cases hc
    | step h1 hs =>
      subst hc
      obtain ⟨N, h2, h3⟩ := cores_forward hI h1 _ rfl
      obtain ⟨rfl, h4⟩ := h3.forward_trap hu hs
      exact h2.step h4

/-- **C124.**  If the instrumented program with its threads does what the original does on a processor with store buffers, when
snippets are taken for the lists of instructions which asmjit was asked for (C123), then so does the program in memory, where
any number of threads execute the same bytes, and threads and buffers take turns after every instruction. -/
theorem C124_same_behaviour {D : ι → Blind κ} {Z : ι → W → Prop} (hI : I.Of P.sites) (hR : P.Refines D Z M0) :
    I.CoreRefines P D Z M0 := by
  have hd : I.Undefined P.sites ∨ ∀ tr, ¬ ArmedCores P M0 tr none := .inr hR.alive
  refine ⟨fun tr M h => ?_, fun tr N h => ?_, fun tr h => hR.alive tr ((cores_backward hI hd h).2 rfl), fun tr N i h => ?_⟩
  · obtain ⟨A, h1, hm, h2⟩ := hR.forth tr M h
    obtain ⟨N, h3, h4⟩ := cores_forward hI h1 A rfl
    refine ⟨N, h3, fun x hx => by rw [h4.mem]; exact hm x hx, fun i => ⟨(h4.abreast.own i _).2 (h2 i).1, ?_⟩⟩
    rw [h4.at_eq]
    exact (h2 i).2
  · obtain ⟨A, h1, h2⟩ := (cores_backward hI hd h).1 N rfl
    obtain ⟨M, h3, hm, h4⟩ := hR.back tr A h1
    refine ⟨M, h3, fun x hx => by rw [h2.mem]; exact hm x hx,
      fun i => ⟨(h2.foot i).point.trans (h4 i).1, fun k e => ?_⟩⟩
    rw [h2.at_eq]
    exact (h4 i).2 k ((h2.abreast.own i k).1 e)
  · obtain ⟨A, h1, h2⟩ := (cores_backward hI hd h).1 N rfl
    obtain ⟨A', h3, h4⟩ := hR.ends tr A i h1
    obtain ⟨N', h5, h6⟩ := h3.bytes hI h2
    exact ⟨N', h5, by rw [(h2.foot i).point]; exact (h6.abreast.own i _).2 h4⟩

end Verif
