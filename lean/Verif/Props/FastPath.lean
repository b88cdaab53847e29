import Verif.FastPath
import Verif.PathSpec

/-!
# C38: fast path instrumentation
-/

namespace Verif

/-- Execution of a function with a push at the beginning of block `p` and as many checks at the
end of each block as it has occurrences in `xs`. -/
def fpTrace (p : Blk) (xs : List Blk) : Blk → List Edge → List Ev
  | b, [] => fpNode p xs b
  | b, e :: es => fpNode p xs b ++ fpTrace p xs e.trg es
where
  fpNode (p : Blk) (xs : List Blk) (b : Blk) : List Ev :=
    (if b = p then [.push] else []) ++ .block b :: List.replicate (xs.count b) .check

/-- Facts about flow graphs: edges know their source and connect blocks of the graph. -/
structure FlowGraph.Ok (g : FlowGraph) : Prop where
  src : ∀ b, ∀ e ∈ g.out b, e.src = b
  trg : ∀ b ∈ g.blocks, ∀ e ∈ g.out b, e.trg ∈ g.blocks
  entries : ∀ b ∈ g.entries, b ∈ g.blocks
  exits : g.exits.Nodup
  nodup : (g.blocks.flatMap g.out).Nodup

/-- What the recogniser has established. -/
structure FastFacts (g : FlowGraph) (funcEntry fastExit slow : Blk) (xs : List Blk) : Prop where
  entries : g.entries = [funcEntry]
  exit : fastExit ∈ g.exits
  slowNotExit : slow ∉ g.exits
  first : ∀ e ∈ g.out funcEntry, e.trg = fastExit ∨ e.trg = slow
  toFast : ∃ e ∈ g.out funcEntry, e.trg = fastExit
  toSlow : ∃ e ∈ g.out funcEntry, e.trg = slow
  taken : ∃ e ∈ g.out funcEntry, e.type = .condTaken
  notTaken : ∃ e ∈ g.out funcEntry, e.type = .condNotTaken
  two : (g.out funcEntry).length = 2
  noInc : g.inc funcEntry = []
  oneInc : (g.inc slow).length = 1
  ret : g.returns fastExit = [true]
  pure : ∀ w ∈ g.writes funcEntry, w = false
  list : ∃ l, slowExits g funcEntry (g.inc fastExit) = some l ∧
    xs = l ++ g.exits.filter fun b => b ≠ fastExit

theorem fastScan_two {exits : List Blk} {l : List Edge} {s : FastScan} {x n : Blk}
    (h : l.foldl (FastScan.step exits) {} = s) (hl : l.length = 2) (hx : s.fastExit = some x)
    (hn : s.entry = some n) :
    x ∈ exits ∧ n ∉ exits ∧ (∀ e ∈ l, e.trg = x ∨ e.trg = n) ∧ (∃ e ∈ l, e.trg = x) ∧
      ∃ e ∈ l, e.trg = n := by
  match l, hl with
  | [e1, e2], _ =>
    subst h
    simp only [List.foldl, FastScan.step] at hx hn
    by_cases h1 : e1.trg ∈ exits <;> by_cases h2 : e2.trg ∈ exits <;>
      simp only [h1, h2, if_true, if_false] at hx hn
    · cases hn
    · cases hx; cases hn; exact ⟨h1, h2, by simp, by simp, by simp⟩
    · cases hx; cases hn; exact ⟨h2, h1, by simp [or_comm], by simp, by simp⟩
    · cases hx

theorem fastScan_taken {exits : List Blk} {l : List Edge} {s : FastScan}
    (h : (l.foldl (FastScan.step exits) s).taken = true) :
    s.taken = true ∨ ∃ e ∈ l, e.type = .condTaken := by
  induction l generalizing s with
  | nil => exact .inl h
  | cons e l ih =>
    rcases ih h with h | ⟨x, hx, hty⟩
    · have : (FastScan.step exits s e).taken = (s.taken || decide (e.type = EdgeType.condTaken)) := by
        simp only [FastScan.step]
        split <;> rfl
      rw [this, Bool.or_eq_true, decide_eq_true_eq] at h
      rcases h with h | h
      · exact .inl h
      · exact .inr ⟨e, by simp, h⟩
    · exact .inr ⟨x, by simp [hx], hty⟩

theorem fastScan_notTaken {exits : List Blk} {l : List Edge} {s : FastScan}
    (h : (l.foldl (FastScan.step exits) s).notTaken = true) :
    s.notTaken = true ∨ ∃ e ∈ l, e.type = .condNotTaken := by
  induction l generalizing s with
  | nil => exact .inl h
  | cons e l ih =>
    rcases ih h with h | ⟨x, hx, hty⟩
    · have : (FastScan.step exits s e).notTaken = (s.notTaken || decide (e.type = EdgeType.condNotTaken)) := by
        simp only [FastScan.step]
        split <;> rfl
      rw [this, Bool.or_eq_true, decide_eq_true_eq] at h
      rcases h with h | h
      · exact .inl h
      · exact .inr ⟨e, by simp, h⟩
    · exact .inr ⟨x, by simp [hx], hty⟩

theorem fast_facts {dis : Bool} {g : FlowGraph} {slow : Blk} {xs : List Blk}
    (h : checkFastPath dis g = some (slow, xs)) :
    dis = false ∧ ∃ funcEntry fastExit, FastFacts g funcEntry fastExit slow xs := by
  unfold checkFastPath at h
  split at h
  · cases h
  rename_i hdis
  split at h
  · rename_i funcEntry hent
    split at h
    · cases h
    rename_i hw
    split at h
    · cases h
    rename_i hlen
    dsimp only at h
    split at h
    · rename_i fastExit entry htk hx hn
      split at h
      · cases h
      rename_i hinc
      split at h
      · cases h
      rename_i hone
      split at h
      · cases h
      rename_i hret
      split at h
      · cases h
      rename_i l hl
      cases h
      obtain ⟨f1, f2, f3, f4, f5⟩ := fastScan_two rfl (by omega) hx hn
      refine ⟨by simpa using hdis, funcEntry, fastExit, hent, f1, f2, f3, f4, f5, ?_, ?_, by omega, ?_,
        by omega, by simpa using hret, ?_, l, hl, rfl⟩
      · rw [Bool.and_eq_true] at htk
        exact (fastScan_taken htk.1).resolve_left (by simp)
      · rw [Bool.and_eq_true] at htk
        exact (fastScan_notTaken htk.2).resolve_left (by simp)
      · exact List.length_eq_zero_iff.mp (by omega)
      · intro w hw'
        cases w with
        | false => rfl
        | true => exact absurd (List.any_eq_true.mpr ⟨true, hw', rfl⟩) hw
    · cases h
  · cases h

/-- **The function starts with a conditional branch**: a function with a fast path has a single entry
block with exactly two outgoing edges, the taken and the not taken branch. -/
theorem C38_branches {dis : Bool} {g : FlowGraph} {slow : Blk} {xs : List Blk}
    (h : checkFastPath dis g = some (slow, xs)) :
    ∃ funcEntry t n, g.entries = [funcEntry] ∧ t.type = .condTaken ∧ n.type = .condNotTaken ∧
      (g.out funcEntry = [t, n] ∨ g.out funcEntry = [n, t]) := by
  obtain ⟨_, fe, fx, hf⟩ := fast_facts h
  obtain ⟨t, ht, htt⟩ := hf.taken
  obtain ⟨n, hn, hnt⟩ := hf.notTaken
  have hne : t ≠ n := by rintro rfl; rw [htt] at hnt; cases hnt
  refine ⟨fe, t, n, hf.entries, htt, hnt, ?_⟩
  have h2 := hf.two
  match he : g.out fe, h2 with
  | [a, b], _ =>
    rw [he] at ht hn
    simp only [List.mem_cons, List.not_mem_nil, or_false] at ht hn
    rcases ht with rfl | rfl <;> rcases hn with rfl | rfl
    · exact absurd rfl hne
    · exact .inl rfl
    · exact .inr rfl
    · exact absurd rfl hne

theorem slowExits_spec (g : FlowGraph) (fe : Blk) : ∀ (es : List Edge) (l : List Blk),
    slowExits g fe es = some l → l = (es.filter fun e => e.src ≠ fe).map (·.src) ∧
      ∀ e ∈ es, e.src ≠ fe → (g.out e.src).length = 1 := by
  intro es
  induction es with
  | nil => intro l h; cases h; simp
  | cons e es ih =>
    intro l h
    rw [slowExits] at h
    split at h
    · rename_i hne
      split at h
      · cases h
      rename_i hlen
      cases hr : slowExits g fe es with
      | none => rw [hr] at h; cases h
      | some l' =>
        rw [hr] at h
        cases h
        obtain ⟨h1, h2⟩ := ih l' hr
        refine ⟨by simp [hne, h1], ?_⟩
        intro x hx hxne
        rcases List.mem_cons.mp hx with rfl | hx
        · omega
        · exact h2 x hx hxne
    · rename_i hne
      obtain ⟨h1, h2⟩ := ih l h
      refine ⟨by simp at hne; simp [hne, h1], ?_⟩
      intro x hx hxne
      rcases List.mem_cons.mp hx with rfl | hx
      · exact absurd hxne hne
      · exact h2 x hx hxne

theorem mem_inc {g : FlowGraph} {b : Blk} {e : Edge} :
    e ∈ g.inc b ↔ (∃ c ∈ g.blocks, e ∈ g.out c) ∧ e.trg = b := by
  simp [FlowGraph.inc, List.mem_filter, List.mem_flatMap]

theorem nodup_all_eq {α : Type} {l : List α} (hn : l.Nodup) {a : α} (h : ∀ x ∈ l, x = a) :
    l.length ≤ 1 := by
  match l, hn with
  | [], _ => simp
  | [_], _ => simp
  | x :: y :: l, hn =>
    have h1 := h x (by simp)
    have h2 := h y (by simp)
    simp [h1, h2] at hn

theorem nodup_count {l : List Blk} (hn : l.Nodup) {b : Blk} (h : b ∈ l) : l.count b = 1 := by
  induction l with
  | nil => cases h
  | cons x l ih =>
    obtain ⟨h1, h2⟩ := List.nodup_cons.mp hn
    rw [List.count_cons]
    rcases List.mem_cons.mp h with rfl | h
    · rw [List.count_eq_zero.mpr h1]; simp
    · have hne : x ≠ b := fun k => h1 (k ▸ h)
      rw [ih h2 h]; simp [hne]

theorem count_map_src (l : List Edge) (b : Blk) :
    (l.map (·.src)).count b = (l.filter fun e => e.src = b).length := by
  induction l with
  | nil => rfl
  | cons e l ih =>
    rw [List.map_cons, List.count_cons, ih]
    by_cases h : e.src = b
    · simp [h]
    · simp [h]

section
variable {g : FlowGraph} {fe fx slow : Blk} {xs : List Blk}

/-- Blocks at whose end the return address is checked, for graphs whose exits have no
successors. -/
theorem check_count (hok : g.Ok) (hpl : ∀ b ∈ g.exits, g.out b = [])
    (hf : FastFacts g fe fx slow xs) (b : Blk) (hb : b ∈ g.blocks) (hbe : b ≠ fe) :
    (b ∈ g.exits → b ≠ fx → xs.count b = 1) ∧
    (b = fx → xs.count b = 0) ∧
    (∀ e ∈ g.out b, e.trg = fx → xs.count b = 1 ∧ ∀ e' ∈ g.out b, e' = e) ∧
    ((∀ e ∈ g.out b, e.trg ≠ fx) → b ∉ g.exits → xs.count b = 0) := by
  obtain ⟨l, hl, rfl⟩ := hf.list
  obtain ⟨h1, h2⟩ := slowExits_spec g fe _ l hl
  have hcl : l.count b = ((g.inc fx).filter fun e => e.src = b).length := by
    rw [h1, count_map_src, List.filter_filter]
    congr 1
    apply List.filter_congr
    intro e _
    by_cases h : e.src = b
    · simp [h, hbe]
    · simp [h]
  have hce : (g.exits.filter fun b => b ≠ fx).count b = if b ∈ g.exits ∧ b ≠ fx then 1 else 0 := by
    have hn := hok.exits.filter fun b => decide (b ≠ fx)
    split
    · rename_i hm
      exact nodup_count hn (by simpa using hm)
    · rename_i hm
      rw [List.count_eq_zero]
      simpa using hm
  rw [List.count_append, hce, hcl]
  have hempty : (∀ e ∈ g.out b, e.trg ≠ fx) → ((g.inc fx).filter fun e => e.src = b) = [] := by
    intro h
    rw [List.filter_eq_nil_iff]
    intro e he
    obtain ⟨⟨c, hc, hec⟩, ht⟩ := mem_inc.mp he
    have hs := hok.src c e hec
    intro hsb
    have hsb : e.src = b := by simpa using hsb
    rw [hs] at hsb
    subst hsb
    exact h e hec ht
  refine ⟨fun hx hne => ?_, fun hx => ?_, fun e he ht => ?_, fun h hx => ?_⟩
  · rw [hempty (by rw [hpl b hx]; simp), if_pos ⟨hx, hne⟩]
    rfl
  · subst hx
    rw [hempty (by rw [hpl b hf.exit]; simp), if_neg (by simp)]
    rfl
  · have hnx : b ∉ g.exits := fun hx => by rw [hpl b hx] at he; cases he
    have hein : e ∈ g.inc fx := mem_inc.mpr ⟨⟨b, hb, he⟩, ht⟩
    have hone := h2 e hein (by rw [hok.src b e he]; exact hbe)
    rw [hok.src b e he] at hone
    have hall : ∀ e' ∈ g.out b, e' = e := by
      match ho : g.out b, hone with
      | [x], _ =>
        rw [ho] at he
        intro e' he'
        simp at he he'
        rw [he, he']
    refine ⟨?_, hall⟩
    rw [if_neg (fun h => hnx h.1)]
    have hle : ((g.inc fx).filter fun e => e.src = b).length ≤ 1 := by
      apply nodup_all_eq (a := e)
      · exact (hok.nodup.filter _).filter _
      · intro x hx
        obtain ⟨hx1, hx2⟩ := List.mem_filter.mp hx
        obtain ⟨⟨c, _, hec⟩, _⟩ := mem_inc.mp hx1
        have hs := hok.src c x hec
        have : x.src = b := by simpa using hx2
        rw [hs] at this
        subst this
        exact hall x hec
    have hge : 0 < ((g.inc fx).filter fun e => e.src = b).length :=
      List.length_pos_of_mem (List.mem_filter.mpr ⟨hein, by simp [hok.src b e he]⟩)
    omega
  · rw [hempty h, if_neg (fun k => hx k.1)]
    rfl

/-- The slow path: blocks, one check, and at most the fast exit block after it. -/
theorem slow_trace (hok : g.Ok) (hpl : ∀ b ∈ g.exits, g.out b = [])
    (hf : FastFacts g fe fx slow xs) {b b' : Blk} {es : List Edge}
    (hw : Walk g.out (fun _ => True) b es b') (hb' : b' ∈ g.exits) (hb : b ∈ g.blocks)
    (hbe : b ≠ fe) (hbx : b ≠ fx) :
    ∃ bs last, visits b es = bs ++ last ∧ (last = [] ∨ last = [fx]) ∧ bs ≠ [] ∧
      fpTrace slow xs b es = (if b = slow then [.push] else []) ++
        (bs.map .block ++ .check :: last.map .block) := by
  induction hw with
  | nil b =>
    refine ⟨[b], [], rfl, .inl rfl, by simp, ?_⟩
    rw [fpTrace, fpTrace.fpNode, ((check_count hok hpl hf b hb hbe).1 hb' hbx)]
    rfl
  | @cons b b' e es he _ hw ih =>
    obtain ⟨_, c2, c3, c4⟩ := check_count hok hpl hf b hb hbe
    have htb := hok.trg b hb e he
    have hnx : b ∉ g.exits := fun hx => by rw [hpl b hx] at he; cases he
    have hsrc := hok.src b e he
    by_cases ht : e.trg = fx
    · obtain ⟨k1, _⟩ := c3 e he ht
      have hout : g.out e.trg = [] := by rw [ht]; exact hpl fx hf.exit
      cases hw with
      | nil =>
        refine ⟨[b], [e.trg], rfl, .inr (by rw [ht]), by simp, ?_⟩
        have hxe : e.trg ≠ fe := by
          intro h
          have : e ∈ g.inc fe := mem_inc.mpr ⟨⟨b, hb, he⟩, h⟩
          rw [hf.noInc] at this; cases this
        have k2 := (check_count hok hpl hf e.trg htb hxe).2.1 ht
        have hns : e.trg ≠ slow := fun h => hf.slowNotExit (h ▸ ht ▸ hf.exit)
        rw [fpTrace, fpTrace, fpTrace.fpNode, fpTrace.fpNode, k1, k2, if_neg hns]
        simp
      | cons he' _ _ => rw [hout] at he'; cases he'
    · have hte : e.trg ≠ fe := by
        intro h
        have : e ∈ g.inc fe := mem_inc.mpr ⟨⟨b, hb, he⟩, h⟩
        rw [hf.noInc] at this; cases this
      have hns : e.trg ≠ slow := by
        intro h
        obtain ⟨e0, he0, ht0⟩ := hf.toSlow
        have hfe : fe ∈ g.blocks := hok.entries fe (by rw [hf.entries]; simp)
        have m1 : e0 ∈ g.inc slow := mem_inc.mpr ⟨⟨fe, hfe, he0⟩, ht0⟩
        have m2 : e ∈ g.inc slow := mem_inc.mpr ⟨⟨b, hb, he⟩, h⟩
        match hi : g.inc slow, hf.oneInc with
        | [x], _ =>
          rw [hi] at m1 m2
          simp at m1 m2
          have := hok.src fe e0 he0
          rw [m1, ← m2, hsrc] at this
          exact hbe this
      have k : xs.count b = 0 := by
        refine c4 (fun e' he' ht' => ?_) hnx
        have := (c3 e' he' ht').2 e he
        exact ht (by rw [this]; exact ht')
      obtain ⟨bs, last, i1, i2, _, i3⟩ := ih hb' htb hte ht
      refine ⟨b :: bs, last, ?_, i2, by simp, ?_⟩
      · rw [show visits b (e :: es) = b :: visits e.trg es from rfl, i1]
        rfl
      · rw [fpTrace, fpTrace.fpNode, k, i3, if_neg hns]
        simp

end

/-- **C38, what holds.** If the shape is recognised and no exit has a successor in the function,
then every walk from the entry to an exit executes the blocks of the walk and either no shadow
stack code, going straight to a block consisting of one return instruction; or one push, right
after the entry block, which writes no memory, and one check, followed by nothing or by a block
consisting of one return instruction.  Missing: exits with successors, for which it is false. -/
theorem C38_fast_path_partial {dis : Bool} {g : FlowGraph} {slow : Blk} {xs : List Blk}
    (h : checkFastPath dis g = some (slow, xs)) (hok : g.Ok)
    (hpl : ∀ b ∈ g.exits, g.out b = []) :
    ∃ fe, g.entries = [fe] ∧ (∀ w ∈ g.writes fe, w = false) ∧
      ∀ (es : List Edge) (b' : Blk), Walk g.out (fun _ => True) fe es b' → b' ∈ g.exits →
      (fpTrace slow xs fe es = [.block fe, .block b'] ∧ visits fe es = [fe, b'] ∧
        g.returns b' = [true]) ∨
      ∃ bs last, visits fe es = fe :: (bs ++ last) ∧
        (last = [] ∨ last = [b'] ∧ g.returns b' = [true]) ∧
        fpTrace slow xs fe es =
          .block fe :: .push :: (bs.map .block ++ .check :: last.map .block) := by
  obtain ⟨_, fe, fx, hf⟩ := fast_facts h
  refine ⟨fe, hf.entries, hf.pure, fun es b' hw hb' => ?_⟩
  have hfe : fe ∈ g.blocks := hok.entries fe (by rw [hf.entries]; simp)
  obtain ⟨e0, he0, ht0⟩ := hf.toSlow
  have hfs : fe ≠ slow := by
    intro h
    have : e0 ∈ g.inc fe := mem_inc.mpr ⟨⟨fe, hfe, he0⟩, by rw [ht0, h]⟩
    rw [hf.noInc] at this; cases this
  have hfnx : fe ∉ g.exits := fun hx => by rw [hpl fe hx] at he0; cases he0
  have hcount : xs.count fe = 0 := by
    obtain ⟨l, hl, rfl⟩ := hf.list
    obtain ⟨h1, _⟩ := slowExits_spec g fe _ l hl
    rw [List.count_append, List.count_eq_zero.mpr, List.count_eq_zero.mpr]
    · simp [hfnx]
    · rw [h1]; simp
  have hnode : fpTrace.fpNode slow xs fe = [.block fe] := by
    rw [fpTrace.fpNode, hcount, if_neg hfs]; rfl
  cases hw with
  | nil => exact absurd hb' hfnx
  | @cons _ _ e es he _ hw =>
    have htb := hok.trg fe hfe e he
    have hte : e.trg ≠ fe := by
      intro h
      have : e ∈ g.inc fe := mem_inc.mpr ⟨⟨fe, hfe, he⟩, h⟩
      rw [hf.noInc] at this; cases this
    rcases hf.first e he with ht | ht
    · have hout : g.out e.trg = [] := by rw [ht]; exact hpl fx hf.exit
      cases hw with
      | nil =>
        left
        have k2 := (check_count hok hpl hf e.trg htb hte).2.1 ht
        have hns : e.trg ≠ slow := fun h => hf.slowNotExit (h ▸ ht ▸ hf.exit)
        refine ⟨?_, rfl, by rw [ht]; exact hf.ret⟩
        rw [fpTrace, hnode, fpTrace, fpTrace.fpNode, k2, if_neg hns]
        rfl
      | cons he' _ _ => rw [hout] at he'; cases he'
    · right
      have hbx : e.trg ≠ fx := fun h => hf.slowNotExit (ht ▸ h ▸ hf.exit)
      obtain ⟨bs, last, i1, i2, _, i3⟩ := slow_trace hok hpl hf hw hb' htb hte hbx
      refine ⟨bs, last, ?_, ?_, ?_⟩
      · rw [show visits fe (e :: es) = fe :: visits e.trg es from rfl, i1]
      · rcases i2 with i2 | i2
        · exact .inl i2
        · right
          have hlast : ∀ {b es b'}, Walk g.out (fun _ => True) b es b' →
              (visits b es).getLast? = some b' := by
            intro b es b' hw
            induction hw with
            | nil => rfl
            | @cons b b' e es _ _ _ ih =>
              rw [show visits b (e :: es) = b :: visits e.trg es from rfl, List.getLast?_cons, ih]
              rfl
          have := hlast hw
          rw [i1, i2, List.getLast?_append] at this
          have hfx : fx = b' := by simpa using this
          exact ⟨by rw [i2, hfx], by rw [← hfx]; exact hf.ret⟩
      · rw [fpTrace, hnode, i3, if_pos ht]
        rfl

/-- Blocks 0 (entry), 1 (slow path, a loop), 2 (leads to the fast exit), 3 (`ret`), 4 (another
exit). -/
def fastGraph : FlowGraph where
  entries := [0]
  exits := [3, 4]
  blocks := [0, 1, 2, 3, 4]
  out := fun b =>
    if b = 0 then [⟨0, 0, 3, .condTaken, false, false⟩, ⟨1, 0, 1, .condNotTaken, false, false⟩]
    else if b = 1 then [⟨2, 1, 2, .condTaken, false, false⟩, ⟨3, 1, 4, .condNotTaken, false, false⟩]
    else if b = 2 then [⟨4, 2, 3, .fallthrough, false, false⟩]
    else []
  writes := fun _ => [false]
  returns := fun b => if b = 3 then [true] else [false, true]

theorem fastGraph_ok : fastGraph.Ok where
  src b e he := by
    simp only [fastGraph] at he
    repeat' split at he
    all_goals simp_all
    all_goals (try rcases he with rfl | rfl) <;> rfl
  trg := by decide
  entries := by decide
  exits := by decide
  nodup := by decide

example : checkFastPath false fastGraph = some (1, [2, 4]) ∧ fastGraph.Ok ∧
    (∀ b ∈ fastGraph.exits, fastGraph.out b = []) ∧
    fpTrace 1 [2, 4] 0 [⟨1, 0, 1, .condNotTaken, false, false⟩, ⟨2, 1, 2, .condTaken, false, false⟩,
      ⟨4, 2, 3, .fallthrough, false, false⟩] =
      [.block 0, .push, .block 1, .block 2, .check, .block 3] :=
  ⟨by decide, fastGraph_ok, by decide, by decide⟩

/-- **C38 is false with conditional tail calls.** Block 2 is an exit, because of a conditional
tail call, and the only other predecessor of the fast exit: it is listed twice and executes two
checks for one push. -/
theorem C38_refuted : ∃ (g : FlowGraph) (slow : Blk) (xs : List Blk) (es : List Edge) (b' : Blk),
    checkFastPath false g = some (slow, xs) ∧ g.Ok ∧ Walk g.out (fun _ => True) 0 es b' ∧
    b' ∈ g.exits ∧ (fpTrace slow xs 0 es).count .push = 1 ∧ (fpTrace slow xs 0 es).count .check = 2 :=
  ⟨{ fastGraph with exits := [2, 3, 4] }, 1, [2, 2, 4],
    [⟨1, 0, 1, .condNotTaken, false, false⟩, ⟨2, 1, 2, .condTaken, false, false⟩,
      ⟨4, 2, 3, .fallthrough, false, false⟩], 3, by decide,
    ⟨fastGraph_ok.src, fastGraph_ok.trg, fastGraph_ok.entries, by decide, fastGraph_ok.nodup⟩,
    .cons (by decide) trivial (.cons (by decide) trivial (.cons (by decide) trivial (.nil _))),
    by decide, by decide, by decide⟩

end Verif
