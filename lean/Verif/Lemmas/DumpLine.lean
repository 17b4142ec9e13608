import Verif.Lemmas.Dump
import Verif.Props.Quote
import Verif.Props.Options

/-! # The line with the settings reads back (C96): all of the line -/
namespace Verif.Dump
open Verif.Options Verif.Cmdline Verif.Props

variable {env : Env} {sys : Sys}

/-- What is known about settings from the command line. -/
structure Bounds (sys : Sys) (o : Options) : Prop where
  threads : 0 < o.threads ∧ o.threads < 2 ^ 31
  optlevel : 0 ≤ o.optlevel ∧ o.optlevel < 2 ^ 31
  mindepth : 0 ≤ o.mindepth ∧ o.mindepth < 2 ^ 31
  maxdepth : 0 ≤ o.maxdepth ∧ o.maxdepth < 2 ^ 31
  debug : o.debug.toNat < 128
  small : o.flags.toNat < 512
  color : o.coutColors = true → sys.colors = true
  recover : o.flags.getLsbD 1 = true
  zero : o.flags.getLsbD 0 = false
  both : (o.flags.getLsbD 3 && o.flags.getLsbD 4) = false
  cycles : o.flags.getLsbD 5 = (o.flags.getLsbD 4 && !o.unique)

theorem natural_bounds {v : Arg} {n : Int} (h : Natural v n) : 0 ≤ n ∧ n < 2 ^ 31 := h.2

theorem last_mem {L : List String} {cs : List Call} {c : Call} (h : last L cs = some c) : c ∈ cs ∧ c.is L = true := by
  have := List.mem_of_getLast? h
  exact List.mem_filter.1 this

theorem is_excl {c : Call} (h : c.is ["-H"] = true) (h' : c.is ["-L", "-follow"] = true) : False := by
  unfold Call.is at h h'
  cases he : table[c.1]? with
  | none => rw [he] at h; cases h
  | some e =>
    rw [he] at h h'
    simp only [List.map_cons, List.map_nil, List.contains_iff_mem, List.mem_cons, List.not_mem_nil, or_false] at h h'
    rw [h] at h'
    rcases h' with h' | h' <;> revert h' <;> decide

theorem bounds {env : Cmdline.Env} {sys : Sys} {args : List Arg} {cmd : Cmd} {o : Options} (h : parseCmdline env sys args = .ok (cmd, o))
    (hn : 1 ≤ sys.nproc) : Bounds sys o := by
  obtain ⟨hp, ha, o1, hm, hc⟩ := (C75_iff env sys args cmd o).1 h
  have ho : o = detectCycles o1 := (detectCycles_iff hm o).2 hc
  have hfl : ∀ k, k ≠ 5 → o.flags.getLsbD k = o1.flags.getLsbD k := by
    intro k hk
    rw [ho]
    unfold detectCycles
    split
    · have : DETECT_CYCLES.getLsbD k = false := by
        by_cases h32 : k < 32
        · have key : ∀ i : Fin 32, i.1 ≠ 5 → DETECT_CYCLES.getLsbD i.1 = false := by decide +kernel
          exact key ⟨k, h32⟩ hk
        · exact BitVec.getLsbD_of_ge _ _ (by omega)
      simp [this]
    · rfl
  have hoth : ∀ k, k < 32 → ALLBITS.getLsbD k = false → o1.flags.getLsbD k = false := by
    intro k hk h0
    have h1 : (o1.flags &&& ~~~ALLBITS).getLsbD k = false := by
      have hz : o1.flags &&& ~~~ALLBITS = 0#32 := hm.others
      rw [hz]; simp
    rw [BitVec.getLsbD_and, BitVec.getLsbD_not, h0] at h1
    simpa [hk] using h1
  have h5 : o1.flags.getLsbD 5 = false := hoth 5 (by decide) (by decide)
  have hsame : ∀ {α : Type} (f : Options → α), (∀ p fl, f { p with flags := fl } = f p) → f o = f o1 := by
    intro α f hf
    rw [ho]
    unfold detectCycles
    split
    · exact hf _ _
    · rfl
  constructor
  · rw [hsame (·.threads) (fun _ _ => rfl)]
    rcases hm.threads with ⟨-, h⟩ | ⟨_, _, -, -, h, h'⟩
    · rw [h]; constructor <;> omega
    · exact ⟨h', h.2.2⟩
  · rw [hsame (·.optlevel) (fun _ _ => rfl)]
    rcases hm.optlevel with ⟨-, h⟩ | ⟨_, _, -, -, h⟩
    · rw [h]; decide
    · generalize o1.optlevel = n at h
      cases h with
      | fast => decide
      | number _ _ h => exact h.2
  · rw [hsame (·.mindepth) (fun _ _ => rfl)]
    rcases hm.mindepth with ⟨-, h⟩ | ⟨_, _, -, -, h⟩
    · rw [h]; decide
    · exact h.2
  · rw [hsame (·.maxdepth) (fun _ _ => rfl)]
    rcases hm.maxdepth with ⟨-, h⟩ | ⟨_, _, -, -, h⟩
    · rw [h]; decide
    · exact h.2
  · rw [hsame (·.debug) (fun _ _ => rfl)]
    have : o1.debug.toNat < 2 ^ 7 := by
      refine Nat.lt_pow_two_of_testBit _ fun i hi => ?_
      cases ht : o1.debug.toNat.testBit i with
      | false => rfl
      | true =>
        obtain ⟨c, -, -, v, ws, -, -, h | ⟨name, hn, -⟩⟩ := (hm.debug i).1 (by rw [BitVec.getLsbD]; exact ht)
        · omega
        · have := debugBit_lt hn; omega
    exact this
  · have : o.flags.toNat < 2 ^ 9 := by
      refine Nat.lt_pow_two_of_testBit _ fun i hi => ?_
      show o.flags.getLsbD i = false
      by_cases h32 : i < 32
      · rw [hfl i (by omega)]
        refine hoth i h32 ?_
        have key : ∀ i : Fin 32, 9 ≤ i.1 → ALLBITS.getLsbD i.1 = false := by decide +kernel
        exact key ⟨i, h32⟩ hi
      · exact BitVec.getLsbD_of_ge _ _ (by omega)
    exact this
  · rw [hsame (·.coutColors) (fun _ _ => rfl)]
    intro hcol
    rcases ((hm.color _ rfl).1).1 hcol with ⟨-, -, h, -⟩ | ⟨c, hl, his⟩
    · exact h
    · exact (ha c (last_mem hl).1).color his
  · rw [hfl 1 (by decide), ← has_bit _ (by decide)]; exact hm.recover
  · rw [hfl 0 (by decide)]; exact hoth 0 (by decide) (by decide)
  · rw [hfl 3 (by decide), hfl 4 (by decide), ← has_bit _ (by decide), ← has_bit _ (by decide)]
    show (has o1.flags FOLLOW_ROOTS && has o1.flags FOLLOW_ALL) = false
    cases h1 : has o1.flags FOLLOW_ROOTS with
    | false => rfl
    | true =>
      cases h2 : has o1.flags FOLLOW_ALL with
      | false => rfl
      | true =>
        obtain ⟨c, hc, hi⟩ := hm.followRoots.1 h1
        obtain ⟨c', hc', hi'⟩ := hm.followAll.1 h2
        rw [hc] at hc'
        cases hc'
        exact (is_excl hi hi').elim
  · have h4 : o.flags.getLsbD 4 = has o1.flags FOLLOW_ALL := by
      rw [hfl 4 (by decide), ← has_bit _ (by decide)]; rfl
    have hd : o.flags.getLsbD 5 = has o.flags DETECT_CYCLES := by rw [← has_bit _ (by decide)]; rfl
    rw [h4, hd, hsame (·.unique) (fun _ _ => rfl)]
    have := hc.1
    cases h1 : has o.flags DETECT_CYCLES <;> cases h2 : has o1.flags FOLLOW_ALL <;> cases h3 : o1.unique <;> simp_all

/-! ## The text is words -/

theorem debug_word : ∀ n, n < 128 → BitVec.ofNat 32 n ≠ 0#32 →
    Spec.Quote.oneWord (debugLoop debugNames 0 (BitVec.ofNat 32 n)) = some (debugLoop debugNames 0 (BitVec.ofNat 32 n)) ∧
    Options.debugLoop (debugLoop debugNames 0 (BitVec.ofNat 32 n)) [] 0#32 = .ok (BitVec.ofNat 32 n) := by decide +kernel

theorem debug_ok {d : BitVec 32} (h : d.toNat < 128) (h0 : d ≠ 0) :
    Spec.Quote.oneWord (debugLoop debugNames 0 d) = some (debugLoop debugNames 0 d) ∧ Options.debugLoop (debugLoop debugNames 0 d) [] 0#32 = .ok d := by
  have he : BitVec.ofNat 32 d.toNat = d := by simp
  have := debug_word d.toNat h (by rw [he]; exact h0)
  rwa [he] at this

theorem part_debug (hv : Valid env) {d : BitVec 32} (h : d.toNat < 128) {o : Options} (ho : o.debug = 0#32) :
    Part env sys false (debugText d) [] o { o with debug := d } := by
  unfold debugText
  have hcall : ∀ v, Options.debugLoop v [] 0#32 = .ok d → call sys (setter (A "-D")) [A "-D", v] o = .ok { o with debug := d } := by
    intro v hl
    have hs : setter (A "-D") = .debug := by decide +kernel
    rw [hs]
    have hp : prefixValue 68 [A "-D", v] = .ok v := (prefixValue_iff 68 (0, [A "-D", v]) v).2 ⟨[45], [], [v], rfl, by decide, .inr ⟨rfl, rfl⟩⟩
    simp only [call, hp, Out.bind, ho, hl]
  by_cases ha : d = DEBUG_ALL
  · rw [if_pos ha]
    exact Part.separate hv "-D" 68 (by decide) (by decide) (by decide +kernel) (by decide +kernel) (by decide +kernel) (hcall _ (by rw [ha]; decide +kernel))
  · rw [if_neg ha]
    by_cases h0 : d ≠ 0
    · rw [if_pos h0]
      obtain ⟨h1, h2⟩ := debug_ok h h0
      exact Part.separate hv "-D" 68 (by decide) (by decide) (by decide +kernel) (by decide +kernel) h1 (hcall _ h2)
    · rw [if_neg h0]
      have : d = 0#32 := by simpa using h0
      rw [this, ← ho]
      exact .nil o

theorem part_strategy (hv : Valid env) (s : Bftw.Strategy) (o : Options) :
    Part env sys false (sp (A "-S") ++ sp (strategyName s)) [] o { o with strategy := s } := by
  refine Part.separate hv "-S" 83 (by decide) (by decide) (by decide +kernel) (by decide +kernel) (by cases s <;> decide +kernel) ?_
  have hs : setter (A "-S") = .strategy := by decide +kernel
  rw [hs]
  have hp : prefixValue 83 [A "-S", strategyName s] = .ok (strategyName s) :=
    (prefixValue_iff 83 (0, [A "-S", strategyName s]) _).2 ⟨[45], [], [strategyName s], rfl, by decide, .inr ⟨rfl, rfl⟩⟩
  have hn : strategyOf (strategyName s) = .ok s := by cases s <;> decide +kernel
  simp only [call, hp, Out.bind, hn]

theorem letter_value (name : String) (letter : UInt8) (hname : A name = [45, letter]) (hl : letter ≠ 45) {n : Int} (h : 0 ≤ n) :
    prefixValue letter [A name ++ decimal n] = .ok (decimal n) :=
  (prefixValue_iff letter (0, [A name ++ decimal n]) _).2 ⟨[45], decimal n, [], by rw [hname]; rfl, by simpa using hl, .inl ⟨(decimal_word h).1, rfl⟩⟩

theorem part_jobs (hv : Valid env) {n : Int} (h : 0 < n ∧ n < 2 ^ 31) (o : Options) :
    Part env sys false (sp (A "-j" ++ decimal n)) [] o { o with threads := n } := by
  refine Part.number hv "-j" 106 (by decide) (by decide) (by decide) (by decide +kernel) ⟨_, rfl, by decide +kernel⟩ (by omega) ?_
  have hs : setter (A "-j") = .jobs := by decide +kernel
  rw [hs]
  have hu : unsignedInt (decimal n) = .ok n := (unsignedInt_iff _ _).2 (decimal_natural (by omega) h.2)
  have hz : n ≠ 0 := by omega
  simp only [call, letter_value "-j" 106 (by decide) (by decide) (show 0 ≤ n by omega), Out.bind, hu, setJobs, if_neg hz]

theorem part_level (hv : Valid env) {n : Int} (h : 0 ≤ n ∧ n < 2 ^ 31) (o : Options) :
    Part env sys false (sp (A "-O" ++ decimal n)) [] o { o with optlevel := n } := by
  refine Part.number hv "-O" 79 (by decide) (by decide) (by decide) (by decide +kernel) ⟨_, rfl, by decide +kernel⟩ h.1 ?_
  have hs : setter (A "-O") = .optlevel := by decide +kernel
  rw [hs]
  have hu : optlevelOf (decimal n) = .ok n := (optlevel_iff _ _).2 (.number _ _ (decimal_natural h.1 h.2))
  simp only [call, letter_value "-O" 79 (by decide) (by decide) h.1, Out.bind, hu]

theorem part_limit (hv : Valid env) {n : Int} (h : 0 ≤ n ∧ n < 2 ^ 31) (o : Options) :
    Part env sys true (sp (A "-mindepth") ++ sp (decimal n)) [] o { o with mindepth := n } ∧
    Part env sys true (sp (A "-maxdepth") ++ sp (decimal n)) [] o { o with maxdepth := n } := by
  obtain ⟨h1, h2⟩ := decimal_word h.1
  have hu : unsignedInt (decimal n) = .ok n := (unsignedInt_iff _ _).2 (decimal_natural h.1 h.2)
  constructor
  · refine Part.valued (root := false) hv "-mindepth" (by decide +kernel) (by decide +kernel) (by decide +kernel) (oneWord_plain h1 h2) ?_
    have hs : setter (A "-mindepth") = .depthLimit true := by decide +kernel
    rw [hs]
    simp [call, value, Out.bind, hu, setLimit]
  · refine Part.valued (root := false) hv "-maxdepth" (by decide +kernel) (by decide +kernel) (by decide +kernel) (oneWord_plain h1 h2) ?_
    have hs : setter (A "-maxdepth") = .depthLimit false := by decide +kernel
    rw [hs]
    simp [call, value, Out.bind, hu, setLimit]

/-- A path is itself in the words. -/
theorem part_root (hv : Valid env) (L : Quote.Locale) (hL : L.OK) (hB : L.Hides false fun c => c = 9 ∨ c = 10) (path : Arg) (o : Options) :
    ∃ t, rootText L path = .ok t ∧ Part env sys false t [path] o o := by
  obtain ⟨out, he, hw⟩ := C13_shell_round_trip L hL hB path
  refine ⟨(if needsF path then sp (A "-f") else []) ++ sp out, by simp [rootText, he, Out.bind], ?_⟩
  cases hf : needsF path with
  | true =>
    simp only [if_true]
    exact Part.valued (root := true) hv "-f" (by decide +kernel) (by decide +kernel) (by decide +kernel) hw (by
      have hs : setter (A "-f") = .nothing := by decide +kernel
      rw [hs]; rfl)
  | false =>
    rw [if_neg (by decide)]
    exact ⟨[path], [], .one hw, fun rest cs ps _ h => .path _ _ _ _ hf h, (fun h => by cases h), fun _ => rfl⟩

theorem part_roots (hv : Valid env) (L : Quote.Locale) (hL : L.OK) (hB : L.Hides false fun c => c = 9 ∨ c = 10) (o : Options) : ∀ paths : List Arg,
    ∃ t, rootsText L paths = .ok t ∧ Part env sys false t paths o o := by
  intro paths
  induction paths with
  | nil => exact ⟨[], rfl, .nil o⟩
  | cons path rest ih =>
    obtain ⟨t, h1, h2⟩ := part_root (sys := sys) hv L hL hB path o
    obtain ⟨u, h3, h4⟩ := ih
    exact ⟨t ++ u, by simp [rootsText, h1, h3, Out.bind], h2.append h4⟩

/-- Flags and options that only say yes. -/
theorem part_plain {strict : Bool} (hv : Valid env) (o : Options) :
    Part env sys strict (sp (A "-X")) [] o { o with xargsSafe := true } ∧
    Part env sys strict (sp (A "-s")) [] o { o with flags := o.flags ||| SORT } ∧
    Part env sys strict (sp (A "-ignore_readdir_race")) [] o { o with ignoreRaces := true } ∧
    Part env sys strict (sp (A "-mount")) [] o { o with flags := o.flags ||| SKIP_MOUNTS } ∧
    Part env sys strict (sp (A "-status")) [] o { o with status := true } ∧
    Part env sys strict (sp (A "-unique")) [] o { o with unique := true } ∧
    Part env sys strict (sp (A "-xdev")) [] o { o with flags := o.flags ||| PRUNE_MOUNTS } ∧
    Part env sys strict (sp (A "-nocolor")) [] o { o with coutColors := false, cerrColors := false } ∧
    (sys.colors = true → Part env sys strict (sp (A "-color")) [] o { o with coutColors := true, cerrColors := true }) := by
  refine ⟨?_, ?_, ?_, ?_, ?_, ?_, ?_, ?_, ?_⟩
  · exact .plain hv "-X" (by decide +kernel) (by decide +kernel) (by decide +kernel) (by rw [show setter (A "-X") = .xargsSafe by decide +kernel]; rfl)
  · exact .plain hv "-s" (by decide +kernel) (by decide +kernel) (by decide +kernel) (by rw [show setter (A "-s") = .sort by decide +kernel]; rfl)
  · exact .plain hv "-ignore_readdir_race" (by decide +kernel) (by decide +kernel) (by decide +kernel) (by rw [show setter (A "-ignore_readdir_race") = .ignoreRaces true by decide +kernel]; rfl)
  · exact .plain hv "-mount" (by decide +kernel) (by decide +kernel) (by decide +kernel) (by rw [show setter (A "-mount") = .mount by decide +kernel]; rfl)
  · exact .plain hv "-status" (by decide +kernel) (by decide +kernel) (by decide +kernel) (by rw [show setter (A "-status") = .status by decide +kernel]; rfl)
  · exact .plain hv "-unique" (by decide +kernel) (by decide +kernel) (by decide +kernel) (by rw [show setter (A "-unique") = .unique by decide +kernel]; rfl)
  · exact .plain hv "-xdev" (by decide +kernel) (by decide +kernel) (by decide +kernel) (by rw [show setter (A "-xdev") = .xdev by decide +kernel]; rfl)
  · exact .plain hv "-nocolor" (by decide +kernel) (by decide +kernel) (by decide +kernel) (by rw [show setter (A "-nocolor") = .color false by decide +kernel]; rfl)
  · intro hc
    exact .plain hv "-color" (by decide +kernel) (by decide +kernel) (by decide +kernel) (by
      rw [show setter (A "-color") = .color true by decide +kernel]
      simp [call, setColor, hc])

/-- The flags for links. -/
theorem part_follow (hv : Valid env) (flags : BitVec 32) (o : Options) :
    Part env sys false (sp (follow flags)) [] o { o with flags := (o.flags &&& ~~~(FOLLOW_ROOTS ||| FOLLOW_ALL)) |||
      (if has flags FOLLOW_ALL then FOLLOW_ALL else if has flags FOLLOW_ROOTS then FOLLOW_ROOTS else 0#32) } := by
  unfold follow
  by_cases h1 : has flags FOLLOW_ALL = true
  · rw [if_pos h1, if_pos h1]
    exact .plain hv "-L" (by decide +kernel) (by decide +kernel) (by decide +kernel) (by rw [show setter (A "-L") = .follow FOLLOW_ALL by decide +kernel]; rfl)
  · rw [if_neg h1, if_neg h1]
    by_cases h2 : has flags FOLLOW_ROOTS = true
    · rw [if_pos h2, if_pos h2]
      exact .plain hv "-H" (by decide +kernel) (by decide +kernel) (by decide +kernel) (by rw [show setter (A "-H") = .follow FOLLOW_ROOTS by decide +kernel]; rfl)
    · rw [if_neg h2, if_neg h2]
      exact .plain hv "-P" (by decide +kernel) (by decide +kernel) (by decide +kernel) (by rw [show setter (A "-P") = .follow 0 by decide +kernel]; rfl)

/-- The flags after the line has been read. -/
def readFlags (x : BitVec 32) : BitVec 32 :=
  let a := (RECOVER &&& ~~~(FOLLOW_ROOTS ||| FOLLOW_ALL)) ||| (if has x FOLLOW_ALL then FOLLOW_ALL else if has x FOLLOW_ROOTS then FOLLOW_ROOTS else 0#32)
  let b := if has x SORT then a ||| SORT else a
  let c := if has x POST_ORDER then b ||| POST_ORDER else b
  let d := if has x SKIP_MOUNTS then c ||| SKIP_MOUNTS else c
  if x &&& (SKIP_MOUNTS ||| PRUNE_MOUNTS) = PRUNE_MOUNTS then d ||| PRUNE_MOUNTS else d

theorem readFlags_small : ∀ n, n < 512 → ∀ u : Bool, (BitVec.ofNat 32 n).getLsbD 1 = true → (BitVec.ofNat 32 n).getLsbD 0 = false →
    ((BitVec.ofNat 32 n).getLsbD 3 && (BitVec.ofNat 32 n).getLsbD 4) = false → (BitVec.ofNat 32 n).getLsbD 5 = ((BitVec.ofNat 32 n).getLsbD 4 && !u) →
    (if has (readFlags (BitVec.ofNat 32 n)) FOLLOW_ALL && !u then readFlags (BitVec.ofNat 32 n) ||| DETECT_CYCLES else readFlags (BitVec.ofNat 32 n)) =
      if has (BitVec.ofNat 32 n) SKIP_MOUNTS then BitVec.ofNat 32 n &&& ~~~PRUNE_MOUNTS else BitVec.ofNat 32 n := by decide +kernel

theorem readFlags_ok {o : Options} (h : Bounds sys o) :
    (if has (readFlags o.flags) FOLLOW_ALL && !o.unique then readFlags o.flags ||| DETECT_CYCLES else readFlags o.flags) =
      if has o.flags SKIP_MOUNTS then o.flags &&& ~~~PRUNE_MOUNTS else o.flags := by
  have he : BitVec.ofNat 32 o.flags.toNat = o.flags := by simp
  have := readFlags_small o.flags.toNat h.small o.unique
  rw [he] at this
  exact this h.recover h.zero h.both h.cycles

/-- The first half of `readFlags`. -/
def readFlags1 (x : BitVec 32) : BitVec 32 :=
  let a := (RECOVER &&& ~~~(FOLLOW_ROOTS ||| FOLLOW_ALL)) ||| (if has x FOLLOW_ALL then FOLLOW_ALL else if has x FOLLOW_ROOTS then FOLLOW_ROOTS else 0#32)
  if has x SORT then a ||| SORT else a

theorem Part.opt {strict : Bool} {c : Prop} [Decidable c] {a : Arg} {o o' : Options} (h : c → Part env sys strict a [] o o') (h' : ¬ c → o = o') :
    Part env sys strict (if c then a else []) [] o o' := by
  by_cases hc : c
  · rw [if_pos hc]; exact h hc
  · rw [if_neg hc, h' hc]; exact .nil o'

/-! Changing one setting. -/
def wFlags (x : BitVec 32) (p : Options) : Options := { p with flags := x }
def wX (x : Bool) (p : Options) : Options := { p with xargsSafe := x }
def wThreads (x : Int) (p : Options) : Options := { p with threads := x }
def wLevel (x : Int) (p : Options) : Options := { p with optlevel := x }
def wStrategy (x : Bftw.Strategy) (p : Options) : Options := { p with strategy := x }
def wDebug (x : BitVec 32) (p : Options) : Options := { p with debug := x }
def wColors (x : Bool) (p : Options) : Options := { p with coutColors := x, cerrColors := x }
def wRaces (x : Bool) (p : Options) : Options := { p with ignoreRaces := x }
def wMin (x : Int) (p : Options) : Options := { p with mindepth := x }
def wMax (x : Int) (p : Options) : Options := { p with maxdepth := x }
def wStatus (x : Bool) (p : Options) : Options := { p with status := x }
def wUnique (x : Bool) (p : Options) : Options := { p with unique := x }

theorem opt_bool {strict : Bool} {name : String} {w : Bool → Options → Options} {f : Options → Bool} (hw : ∀ p : Options, f p = false → w false p = p)
    (h : ∀ p, Part env sys strict (sp (A name)) [] p (w true p)) (b : Bool) (p : Options) (hp : f p = false) :
    Part env sys strict (if b = true then sp (A name) else []) [] p (w b p) :=
  .opt (fun hb => by rw [hb]; exact h p) (fun hb => by rw [show b = false by simpa using hb, hw p hp])

theorem opt_flag {strict : Bool} {name : String} {m : BitVec 32} (h : ∀ p : Options, Part env sys strict (sp (A name)) [] p { p with flags := p.flags ||| m })
    (c : Prop) [Decidable c] (p : Options) :
    Part env sys strict (if c then sp (A name) else []) [] p (wFlags (if c then p.flags ||| m else p.flags) p) :=
  .opt (fun hc => by rw [if_pos hc]; exact h p) (fun hc => by rw [if_neg hc]; rfl)

/-- The settings after the flags. -/
def afterFlags (sys : Sys) (o : Options) : Options :=
  wDebug o.debug (wStrategy o.strategy (wLevel o.optlevel (wThreads o.threads (wFlags (readFlags1 o.flags) (wX o.xargsSafe (defaults sys))))))

theorem part_flags (hv : Valid env) {o : Options} (h : Bounds sys o) : Part env sys false (flagsText o) [] (defaults sys) (afterFlags sys o) := by
  unfold flagsText
  have p1 := part_follow (sys := sys) hv o.flags (defaults sys)
  have p2 := opt_bool (name := "-X") (w := wX) (f := (·.xargsSafe)) (fun p hp => by cases p; dsimp only at hp; subst hp; rfl) (fun p => (part_plain (sys := sys) (strict := false) hv p).1) o.xargsSafe
    (wFlags ((RECOVER &&& ~~~(FOLLOW_ROOTS ||| FOLLOW_ALL)) ||| (if has o.flags FOLLOW_ALL then FOLLOW_ALL else if has o.flags FOLLOW_ROOTS then FOLLOW_ROOTS else 0#32)) (defaults sys)) rfl
  have p3 := opt_flag (name := "-s") (m := SORT) (fun p => (part_plain (sys := sys) (strict := false) hv p).2.1) (has o.flags SORT = true) (wX o.xargsSafe
    (wFlags ((RECOVER &&& ~~~(FOLLOW_ROOTS ||| FOLLOW_ALL)) ||| (if has o.flags FOLLOW_ALL then FOLLOW_ALL else if has o.flags FOLLOW_ROOTS then FOLLOW_ROOTS else 0#32)) (defaults sys)))
  have p4 := part_jobs (sys := sys) hv h.threads (wFlags (readFlags1 o.flags) (wX o.xargsSafe (defaults sys)))
  have p5 : Part env sys false (if o.optlevel ≠ 3 then sp (A "-O" ++ decimal o.optlevel) else []) [] (wThreads o.threads (wFlags (readFlags1 o.flags) (wX o.xargsSafe (defaults sys))))
      (wLevel o.optlevel (wThreads o.threads (wFlags (readFlags1 o.flags) (wX o.xargsSafe (defaults sys))))) :=
    .opt (fun _ => part_level hv h.optlevel _) (fun hn => by rw [show o.optlevel = 3 by simpa using hn]; rfl)
  have p6 := part_strategy (sys := sys) hv o.strategy (wLevel o.optlevel (wThreads o.threads (wFlags (readFlags1 o.flags) (wX o.xargsSafe (defaults sys)))))
  have p7 := part_debug (sys := sys) hv h.debug (o := wStrategy o.strategy (wLevel o.optlevel (wThreads o.threads (wFlags (readFlags1 o.flags) (wX o.xargsSafe (defaults sys)))))) rfl
  exact (((((Part.and p1 p2).and p3).and p4).and p5).and p6).and p7

/-- The settings after the options. -/
def afterOptions (o p : Options) : Options :=
  wFlags (let c := if has o.flags POST_ORDER then p.flags ||| POST_ORDER else p.flags
      let d := if has o.flags SKIP_MOUNTS then c ||| SKIP_MOUNTS else c
      if o.flags &&& (SKIP_MOUNTS ||| PRUNE_MOUNTS) = PRUNE_MOUNTS then d ||| PRUNE_MOUNTS else d)
    (wUnique o.unique (wStatus o.status (wMax o.maxdepth (wMin o.mindepth (wRaces o.ignoreRaces (wColors o.coutColors p))))))

theorem part_options (hv : Valid env) {o : Options} (h : Bounds sys o) {p : Options} (h1 : p.ignoreRaces = false) (h2 : p.mindepth = 0) (h3 : p.maxdepth = INT_MAX)
    (h4 : p.status = false) (h5 : p.unique = false) : Part env sys true (optionsText o) [] p (afterOptions o p) := by
  have q1 : Part env sys true (sp (if o.coutColors then A "-color" else A "-nocolor")) [] p (wColors o.coutColors p) := by
    cases hc : o.coutColors with
    | true => exact (part_plain hv p).2.2.2.2.2.2.2.2 (h.color hc)
    | false => exact (part_plain hv p).2.2.2.2.2.2.2.1
  have q2 := opt_flag (name := "-depth") (m := POST_ORDER) (fun p => Part.depth (sys := sys) hv p) (has o.flags POST_ORDER = true) (wColors o.coutColors p)
  have q3 := fun r hr => opt_bool (name := "-ignore_readdir_race") (w := wRaces) (f := (·.ignoreRaces)) (fun p hp => by cases p; dsimp only at hp; subst hp; rfl)
    (fun p => (part_plain (sys := sys) (strict := true) hv p).2.2.1) o.ignoreRaces r hr
  have q4 : ∀ r : Options, r.mindepth = 0 → Part env sys true (if o.mindepth ≠ 0 then sp (A "-mindepth") ++ sp (decimal o.mindepth) else []) [] r (wMin o.mindepth r) :=
    fun r hr => .opt (fun _ => (part_limit hv h.mindepth r).1) (fun hn => by rw [show o.mindepth = 0 by simpa using hn, ← hr]; rfl)
  have q5 : ∀ r : Options, r.maxdepth = INT_MAX → Part env sys true (if o.maxdepth ≠ INT_MAX then sp (A "-maxdepth") ++ sp (decimal o.maxdepth) else []) [] r (wMax o.maxdepth r) :=
    fun r hr => .opt (fun _ => (part_limit hv h.maxdepth r).2) (fun hn => by rw [show o.maxdepth = INT_MAX by simpa using hn, ← hr]; rfl)
  have q6 := opt_flag (name := "-mount") (m := SKIP_MOUNTS) (fun p => (part_plain (sys := sys) (strict := true) hv p).2.2.2.1) (has o.flags SKIP_MOUNTS = true)
  have q7 := fun r hr => opt_bool (name := "-status") (w := wStatus) (f := (·.status)) (fun p hp => by cases p; dsimp only at hp; subst hp; rfl)
    (fun p => (part_plain (sys := sys) (strict := true) hv p).2.2.2.2.1) o.status r hr
  have q8 := fun r hr => opt_bool (name := "-unique") (w := wUnique) (f := (·.unique)) (fun p hp => by cases p; dsimp only at hp; subst hp; rfl)
    (fun p => (part_plain (sys := sys) (strict := true) hv p).2.2.2.2.2.1) o.unique r hr
  have q9 := opt_flag (name := "-xdev") (m := PRUNE_MOUNTS) (fun p => (part_plain (sys := sys) (strict := true) hv p).2.2.2.2.2.2.1)
    (o.flags &&& (SKIP_MOUNTS ||| PRUNE_MOUNTS) = PRUNE_MOUNTS)
  unfold optionsText
  exact (((((((q1.and q2).and (q3 _ h1)).and (q4 _ h2)).and (q5 _ h3)).and (q6 _)).and (q7 _ h4)).and (q8 _ h5)).and (q9 _)

/-- All of the line. -/
theorem line_ok (hv : Valid env) (L : Quote.Locale) (hL : L.OK) (hB : L.Hides false fun c => c = 9 ∨ c = 10) {o : Options} (h : Bounds sys o) {paths : List Arg} (hp : paths ≠ []) :
    ∃ text words cmd, line L o paths = .ok text ∧ Reads text words ∧
      parseCmdline env sys words = .ok (cmd, { o with
        flags := if has o.flags SKIP_MOUNTS then o.flags &&& ~~~PRUNE_MOUNTS else o.flags
        cerrColors := o.coutColors
        ignoreErrors := false
        warn := (defaults sys).warn
        dangerous := false
        regex := .posixBasic
        files0 := none }) ∧
      cmd.roots = paths ∧ cmd.excludes = [] := by
  obtain ⟨w1, c1, r1, s1, -, f1⟩ := part_flags (sys := sys) hv h
  obtain ⟨t2, ht2, w2, c2, r2, s2, -, f2⟩ := part_roots (sys := sys) hv L hL hB (afterFlags sys o) paths
  obtain ⟨w3, c3, r3, s3, -, f3⟩ := part_options (sys := sys) hv h (p := afterFlags sys o) rfl rfl rfl rfl rfl
  have hs3 := s3 [] [] [] (fun _ => by simp [NoNumber]) .nil
  have hs := s1 _ _ _ (fun h => by cases h) (s2 _ _ _ (fun h => by cases h) hs3)
  simp only [List.append_nil, List.nil_append] at hs
  obtain ⟨cmd, hw, hr, hcalls, hx⟩ := shown_whole hs hp
  refine ⟨flagsText o ++ t2 ++ optionsText o, w1 ++ (w2 ++ w3), cmd, by simp [line, ht2, Out.bind], ?_, ?_, hr, hx⟩
  · rw [List.append_assoc]
    exact r1.append (r2.append r3)
  · unfold parseCmdline
    rw [hw]
    have hf3 := f3 []
    rw [List.append_nil] at hf3
    simp only [Out.bind, hcalls, f1, f2, hf3, configure]
    have key := readFlags_ok h
    congr 2
    rw [← key]
    have hfl : (afterOptions o (afterFlags sys o)).flags = readFlags o.flags := rfl
    have hun : (afterOptions o (afterFlags sys o)).unique = o.unique := rfl
    unfold detectCycles
    rw [hfl, hun]
    split <;> rfl

end Verif.Dump
