import Verif.Spec.CommandLine
/- The parsing loop against the specification: a command line is accepted exactly if it is a way to say something that is in order. -/
namespace Atsc
variable {K : Type} [DecidableEq K]

/-- The tables of the model agree with the manual. -/
structure Describes (m : Manual K) (c : Cmd K) : Prop where
  input : c.input = m.input
  long : ∀ s k, c.long s = some k ↔ ∃ e, m.Long s e ∧ e.key = k
  short : ∀ n k, c.short n = some k ↔ ∃ e, m.Short n e ∧ e.key = k
  takes : ∀ e ∈ m.entries, c.takes e.key = e.value.isSome
  valid : ∀ e ∈ m.entries, ∀ v, c.valid e.key v = true ↔ ∀ P, e.value = some P → P v
  validIn : ∀ v, c.valid m.input v = true ↔ v ≠ []
  stop : ∀ e ∈ m.entries, c.stop e.key = e.stop
  stopIn : c.stop m.input = none
  stopFlag : ∀ e ∈ m.entries, e.value.isSome = true → e.stop = none
  names : ∀ e ∈ m.entries, ∀ s, e.long = some s → s ≠ [] ∧ '=' ∉ s
  letters : ∀ e ∈ m.entries, e.short ≠ some '-'
  fresh : ∀ e ∈ m.entries, e.key ≠ m.input
  cover : ∀ k, k = m.input ∨ ∃ e ∈ m.entries, e.key = k
  unique : ∀ e ∈ m.entries, ∀ e' ∈ m.entries, e.key = e'.key → e = e'

theorem stop_bind {ε α β : Type} {x : Except ε α} {f : α → Except ε β} {b : β} : (x >>= f) = .ok b ↔ ∃ a, x = .ok a ∧ f a = .ok b := by
  cases x with
  | error e => exact ⟨(fun h => by cases h), fun ⟨a, h, _⟩ => by cases h⟩
  | ok a => exact ⟨fun h => ⟨a, rfl, h⟩, fun ⟨a', h, h'⟩ => by rw [← Except.ok.inj h] at h'; exact h'⟩

theorem splitEq_none : ∀ {l : List Char}, '=' ∉ l → splitEq l = (l, none)
  | [], _ => rfl
  | c :: l, h => by
    have h1 : c ≠ '=' := fun e => h (by rw [e]; exact List.mem_cons_self)
    have h2 : '=' ∉ l := fun e => h (List.mem_cons_of_mem _ e)
    rw [splitEq, if_neg h1, splitEq_none h2]

theorem splitEq_some : ∀ {l : List Char} (v : List Char), '=' ∉ l → splitEq (l ++ '=' :: v) = (l, some v)
  | [], _, _ => by rw [List.nil_append, splitEq, if_pos rfl]
  | c :: l, v, h => by
    have h1 : c ≠ '=' := fun e => h (by rw [e]; exact List.mem_cons_self)
    have h2 : '=' ∉ l := fun e => h (List.mem_cons_of_mem _ e)
    rw [List.cons_append, splitEq, if_neg h1, splitEq_some v h2]

theorem splitEq_inv : ∀ (l : List Char), ((splitEq l).2 = none → (splitEq l).1 = l) ∧ ∀ v, (splitEq l).2 = some v → l = (splitEq l).1 ++ '=' :: v
  | [] => ⟨fun _ => rfl, fun v h => by cases h⟩
  | c :: l => by
    have ih := splitEq_inv l
    rw [splitEq]
    by_cases h : c = '='
    · rw [if_pos h]
      refine ⟨(fun h => by cases h), fun v hv => ?_⟩
      rw [h, ← Option.some.inj hv]; rfl
    · rw [if_neg h]
      refine ⟨fun hn => ?_, fun v hv => ?_⟩
      · show c :: (splitEq l).1 = _
        rw [ih.1 hn]
      · show c :: l = c :: (splitEq l).1 ++ _
        rw [List.cons_append, ← ih.2 v hv]

theorem look_plain {v : List Char} (hv : Plain v) : look v = .value v := by
  rcases hv with rfl | hv
  · rfl
  · unfold look
    split
    · exact absurd rfl hv
    · exact absurd rfl hv
    · exact absurd rfl hv
    · rfl

theorem look_long {body : List Char} (hb : body ≠ []) : look (['-', '-'] ++ body) = .long body := by
  cases body with
  | nil => exact absurd rfl hb
  | cons a r => rfl

theorem look_short {n : Char} (hn : n ≠ '-') (cs : List Char) : look ('-' :: n :: cs) = .short n cs := by
  unfold look
  split
  · rename_i h; exact absurd (List.cons.inj (List.cons.inj h).2).1 hn
  · rename_i h; exact absurd (List.cons.inj (List.cons.inj h).2).1 hn
  · rename_i h
    obtain ⟨rfl, rfl⟩ := List.cons.inj (List.cons.inj h).2
    rfl
  · rename_i h
    exact absurd rfl (h n cs)

/-- What a word is, from what it looks like. -/
theorem look_inv (t : Tok) : match look t with
    | .escape => t = ['-', '-']
    | .long body => t = ['-', '-'] ++ body ∧ body ≠ []
    | .short n cs => t = '-' :: n :: cs ∧ n ≠ '-'
    | .value v => v = t ∧ Plain t := by
  rcases t with _ | ⟨a, _ | ⟨b, r⟩⟩
  · exact ⟨rfl, Or.inr (by simp)⟩
  · by_cases ha : a = '-'
    · subst ha; exact ⟨rfl, Or.inl rfl⟩
    · have hp : Plain [a] := Or.inr (by simpa using ha)
      rw [look_plain hp]; exact ⟨rfl, hp⟩
  · by_cases ha : a = '-'
    · subst ha
      by_cases hb : b = '-'
      · subst hb
        cases r with
        | nil => rfl
        | cons d r => exact ⟨rfl, by simp⟩
      · rw [look_short hb]; exact ⟨rfl, hb⟩
    · have hp : Plain (a :: b :: r) := Or.inr (by simpa using ha)
      rw [look_plain hp]; exact ⟨rfl, hp⟩

/-- A plain word goes to the waiting option or to the positional argument. -/
theorem run_plain (c : Cmd K) (pend : Option K) (seen : Seen K) {v : List Char} (hv : Plain v) (ts : List Tok) :
    c.run pend false seen (v :: ts) = (c.react seen (pend.getD c.input) v >>= fun s => c.run none false s ts) := by
  rw [Cmd.run.eq_def]
  simp only [Bool.false_eq_true, if_false, look_plain hv]
  cases pend <;> cases c.react seen _ v <;> rfl

theorem run_long (c : Cmd K) (seen : Seen K) {body : List Char} (hb : body ≠ []) (ts : List Tok) :
    c.run none false seen ((['-', '-'] ++ body) :: ts) = (c.longArg seen body >>= fun
      | .done s => c.run none false s ts
      | .pending s k => c.run (some k) false s ts) := by
  rw [Cmd.run.eq_def]
  simp only [Bool.false_eq_true, if_false, look_long hb]
  rcases c.longArg seen body with s | (s | ⟨s, k⟩) <;> rfl

theorem run_short (c : Cmd K) (seen : Seen K) {n : Char} (hn : n ≠ '-') (cs : List Char) (ts : List Tok) :
    c.run none false seen (('-' :: n :: cs) :: ts) = (c.shorts seen (n :: cs) >>= fun
      | .done s => c.run none false s ts
      | .pending s k => c.run (some k) false s ts) := by
  rw [Cmd.run.eq_def]
  simp only [Bool.false_eq_true, if_false, look_short hn]
  rcases c.shorts seen (n :: cs) with s | (s | ⟨s, k⟩) <;> rfl

/-- An option that waits for its value and gets none is refused. -/
theorem run_pending {c : Cmd K} {k : K} {seen : Seen K} {ts : List Tok} {out : Seen K} (h : c.run (some k) false seen ts = .ok out) :
    ∃ v ts', ts = v :: ts' ∧ Plain v := by
  cases ts with
  | nil => rw [Cmd.run] at h; cases h
  | cons t ts =>
    have hl := look_inv t
    rw [Cmd.run.eq_def] at h
    simp only [Bool.false_eq_true, if_false] at h
    cases ht : look t with
    | escape => rw [ht] at h; cases h
    | long b => rw [ht] at h; cases h
    | short n cs => rw [ht] at h; cases h
    | value v => rw [ht] at hl; exact ⟨t, ts, rfl, hl.2⟩

/-- Everything said, one `react` each. -/
def reactAll (c : Cmd K) (seen : Seen K) : Said K → Except Stop (Seen K)
  | [] => .ok seen
  | x :: s => c.react seen x.1 x.2 >>= fun seen' => reactAll c seen' s

theorem reactAll_append (c : Cmd K) : ∀ (s t : Said K) (seen : Seen K), reactAll c seen (s ++ t) = (reactAll c seen s >>= fun seen' => reactAll c seen' t)
  | [], _, _ => rfl
  | x :: s, t, seen => by
    rw [List.cons_append, reactAll, reactAll]
    cases c.react seen x.1 x.2 with
    | error e => rfl
    | ok seen' => exact reactAll_append c s t seen'

theorem short_some {m : Manual K} {c : Cmd K} (D : Describes m c) {n : Char} {e : Entry K} (h : m.Short n e) : c.short n = some e.key :=
  (D.short n e.key).2 ⟨e, h, rfl⟩

theorem shorts_bunch {m : Manual K} {c : Cmd K} (D : Describes m c) {ns : List Char} {b : Said K} (h : Bunch m ns b) : ∀ (seen : Seen K) (rest : List Char),
    c.shorts seen (ns ++ rest) = (reactAll c seen b >>= fun s => c.shorts s rest) := by
  induction h with
  | nil => intro seen rest; rfl
  | @cons n e ns s hn hv _ ih =>
    intro seen rest
    rw [List.cons_append, Cmd.shorts, short_some D hn, reactAll]
    simp only [D.takes e hn.1, hv, Option.isSome_none, Bool.false_eq_true, if_false]
    cases c.react seen e.key [] with
    | error x => rfl
    | ok seen' => exact ih seen' rest

theorem bunch_head {m : Manual K} {c : Cmd K} (D : Describes m c) {ns : List Char} {b : Said K} (h : Bunch m ns b) {n : Char} {e : Entry K} (hn : m.Short n e)
    (rest : List Char) : ∃ n' r, ns ++ n :: rest = n' :: r ∧ n' ≠ '-' := by
  cases h with
  | nil => exact ⟨n, rest, rfl, fun hd => D.letters e hn.1 (by rw [hn.2, hd])⟩
  | @cons n' e' ns s hn' _ _ => exact ⟨n', ns ++ n :: rest, rfl, fun hd => D.letters e' hn'.1 (by rw [hn'.2, hd])⟩

theorem shorts_value {m : Manual K} {c : Cmd K} (D : Describes m c) {n : Char} {e : Entry K} (hn : m.Short n e) (hv : e.value.isSome) (seen : Seen K)
    (rest : List Char) : c.shorts seen (n :: rest) =
      if rest = [] then .ok (.pending seen e.key) else (c.react seen e.key (attached rest)).map .done := by
  rw [Cmd.shorts, short_some D hn]
  simp only [D.takes e hn.1, hv, if_true]

theorem attached_plain {v : List Char} (h : v.head? ≠ some '=') : attached v = v := by
  unfold attached
  split
  · exact absurd rfl h
  · rfl

theorem run_trailing (c : Cmd K) : ∀ (vs : List Tok) (seen : Seen K), c.run none true seen vs = reactAll c seen (vs.map fun v => (c.input, v))
  | [], seen => by rw [Cmd.run]; rfl
  | v :: vs, seen => by
    rw [Cmd.run.eq_def, List.map_cons, reactAll]
    simp only [if_true, Option.getD_none]
    cases c.react seen c.input v with
    | error e => rfl
    | ok s => exact run_trailing c vs s

/-- A command line that says something: the parser does one `react` for each thing said. -/
theorem line_run {m : Manual K} {c : Cmd K} (D : Describes m c) {ts : List Tok} {s : Said K} (h : Line m ts s) :
    ∀ seen, c.run none false seen ts = reactAll c seen s := by
  induction h with
  | nil => intro seen; rw [Cmd.run]; rfl
  | @word v ts s hv _ ih =>
    intro seen
    rw [run_plain c none seen hv, Option.getD_none, D.input, reactAll]
    cases c.react seen m.input v with
    | error e => rfl
    | ok s => exact ih s
  | @flag name e ts s hn hv _ ih =>
    intro seen
    obtain ⟨n1, n2⟩ := D.names e hn.1 name hn.2
    rw [run_long c seen n1, Cmd.longArg, splitEq_none n2, (D.long name e.key).2 ⟨e, hn, rfl⟩, reactAll]
    simp only [D.takes e hn.1, hv, Option.isSome_none, Bool.false_eq_true, if_false]
    cases c.react seen e.key [] with
    | error x => rfl
    | ok s => exact ih s
  | @longEq name v e ts s hn hv _ ih =>
    intro seen
    obtain ⟨n1, n2⟩ := D.names e hn.1 name hn.2
    rw [List.append_assoc, run_long c seen (by simp), Cmd.longArg, splitEq_some v n2, (D.long name e.key).2 ⟨e, hn, rfl⟩, reactAll]
    simp only [D.takes e hn.1, hv, if_true]
    cases c.react seen e.key v with
    | error x => rfl
    | ok s => exact ih s
  | @longSep name v e ts s hn hv hp _ ih =>
    intro seen
    obtain ⟨n1, n2⟩ := D.names e hn.1 name hn.2
    rw [run_long c seen n1, Cmd.longArg, splitEq_none n2, (D.long name e.key).2 ⟨e, hn, rfl⟩, reactAll]
    simp only [D.takes e hn.1, hv, if_true]
    show c.run (some e.key) false seen (v :: ts) = _
    rw [run_plain c (some e.key) seen hp]
    show (c.react seen e.key v >>= _) = _
    cases c.react seen e.key v with
    | error x => rfl
    | ok s => exact ih s
  | @bunch ns b ts s hne hb _ ih =>
    intro seen
    have hs := shorts_bunch D hb seen []
    rw [List.append_nil] at hs
    cases hb with
    | nil => exact absurd rfl hne
    | @cons n e ns' s' hn hv hb' =>
      rw [run_short c seen (fun hd => D.letters e hn.1 (by rw [hn.2, hd])), hs, reactAll_append]
      cases reactAll c seen ((e.key, []) :: s') with
      | error x => rfl
      | ok s => exact ih s
  | @shortEq ns v b n e ts s hb hn hv _ ih =>
    intro seen
    obtain ⟨n', r, e1, e2⟩ := bunch_head D hb hn ('=' :: v)
    rw [e1, run_short c seen e2, ← e1, shorts_bunch D hb, reactAll_append]
    cases reactAll c seen b with
    | error x => rfl
    | ok s' =>
      show (c.shorts s' (n :: '=' :: v) >>= _) = reactAll c s' ((e.key, v) :: s)
      rw [shorts_value D hn hv, if_neg (by simp), reactAll]
      show ((c.react s' e.key v).map After.done >>= _) = _
      cases c.react s' e.key v with
      | error x => rfl
      | ok s => exact ih s
  | @shortJoined ns v b n e ts s hb hn hv hne heq _ ih =>
    intro seen
    obtain ⟨n', r, e1, e2⟩ := bunch_head D hb hn v
    rw [e1, run_short c seen e2, ← e1, shorts_bunch D hb, reactAll_append]
    cases reactAll c seen b with
    | error x => rfl
    | ok s' =>
      show (c.shorts s' (n :: v) >>= _) = reactAll c s' ((e.key, v) :: s)
      rw [shorts_value D hn hv, if_neg hne, attached_plain heq, reactAll]
      cases c.react s' e.key v with
      | error x => rfl
      | ok s => exact ih s
  | @shortSep ns v b n e ts s hb hn hv hp _ ih =>
    intro seen
    obtain ⟨n', r, e1, e2⟩ := bunch_head D hb hn []
    rw [e1, run_short c seen e2, ← e1, shorts_bunch D hb, reactAll_append]
    cases reactAll c seen b with
    | error x => rfl
    | ok s' =>
      show (c.shorts s' [n] >>= _) = reactAll c s' ((e.key, v) :: s)
      rw [shorts_value D hn hv, if_pos rfl, reactAll]
      show c.run (some e.key) false s' (v :: ts) = _
      rw [run_plain c (some e.key) s' hp]
      show (c.react s' e.key v >>= _) = _
      cases c.react s' e.key v with
      | error x => rfl
      | ok s => exact ih s
  | dashes vs =>
    intro seen
    rw [← D.input, ← run_trailing, Cmd.run.eq_def]
    rfl

/-- What a word of short names is when it is accepted. -/
theorem shorts_inv {m : Manual K} {c : Cmd K} (D : Describes m c) : ∀ (ns : List Char) (seen : Seen K) (o : After K), c.shorts seen ns = .ok o →
    match o with
    | .done _ => (∃ b, Bunch m ns b) ∨ ∃ ns1 n rest b e, ns = ns1 ++ n :: rest ∧ Bunch m ns1 b ∧ m.Short n e ∧ e.value.isSome ∧ rest ≠ []
    | .pending _ k => ∃ ns1 n b e, ns = ns1 ++ [n] ∧ Bunch m ns1 b ∧ m.Short n e ∧ e.value.isSome ∧ e.key = k
  | [], seen, o, h => by
    rw [Cmd.shorts] at h
    rw [← Except.ok.inj h]
    exact Or.inl ⟨[], .nil⟩
  | n :: ns, seen, o, h => by
    rw [Cmd.shorts] at h
    cases hk : c.short n with
    | none => rw [hk] at h; cases h
    | some k =>
      obtain ⟨e, hn, rfl⟩ := (D.short n k).1 hk
      rw [hk] at h
      dsimp only at h
      rw [D.takes e hn.1] at h
      cases hv : e.value with
      | some P =>
        rw [hv] at h
        simp only [Option.isSome_some, if_true] at h
        have hvs : e.value.isSome = true := by rw [hv]; rfl
        by_cases hr : ns = []
        · rw [if_pos hr] at h
          rw [← Except.ok.inj h]
          exact ⟨[], n, [], e, by rw [hr]; rfl, .nil, hn, hvs, rfl⟩
        · rw [if_neg hr] at h
          cases hreact : c.react seen e.key (attached ns) with
          | error x => rw [hreact] at h; cases h
          | ok s =>
            rw [hreact] at h
            rw [← Except.ok.inj h]
            exact Or.inr ⟨[], n, ns, [], e, rfl, .nil, hn, hvs, hr⟩
      | none =>
        rw [hv] at h
        simp only [Option.isSome_none, Bool.false_eq_true, if_false] at h
        cases hreact : c.react seen e.key [] with
        | error x => rw [hreact] at h; cases h
        | ok s =>
          rw [hreact] at h
          have ih := shorts_inv D ns s o h
          cases o with
          | done s' =>
            rcases ih with ⟨b, hb⟩ | ⟨ns1, n', rest, b, e', h1, h2, h3, h4, h5⟩
            · exact Or.inl ⟨_, .cons hn hv hb⟩
            · exact Or.inr ⟨n :: ns1, n', rest, _, e', by rw [h1]; rfl, .cons hn hv h2, h3, h4, h5⟩
          | pending s' k =>
            obtain ⟨ns1, n', b, e', h1, h2, h3, h4, h5⟩ := ih
            exact ⟨n :: ns1, n', _, e', by rw [h1]; rfl, .cons hn hv h2, h3, h4, h5⟩

/-- A command line that is accepted is a way to say something. -/
theorem run_line {m : Manual K} {c : Cmd K} (D : Describes m c) : ∀ (n : Nat) (ts : List Tok), ts.length ≤ n → ∀ (seen out : Seen K),
    c.run none false seen ts = .ok out → ∃ s, Line m ts s
  | _, [], _, _, _, _ => ⟨[], .nil⟩
  | 0, t :: ts, hl, _, _, _ => by simp at hl
  | n + 1, t :: ts, hl, seen, out, h => by
    have hl' : ts.length ≤ n := by simpa using hl
    have hlook := look_inv t
    have sep : ∀ (k : K) (seen' : Seen K), c.run (some k) false seen' ts = .ok out → ∃ v ts' s, ts = v :: ts' ∧ Plain v ∧ Line m ts' s := by
      intro k seen' h
      obtain ⟨v, ts', rfl, hp⟩ := run_pending h
      rw [run_plain c (some k) seen' hp] at h
      obtain ⟨s1, -, h2⟩ := stop_bind.1 h
      obtain ⟨s, hs⟩ := run_line D n ts' (by simp at hl'; omega) _ _ h2
      exact ⟨v, ts', s, rfl, hp, hs⟩
    cases ht : look t with
    | escape =>
      rw [ht] at hlook
      rw [hlook]
      exact ⟨_, .dashes ts⟩
    | value v =>
      rw [ht] at hlook
      rw [run_plain c none seen hlook.2] at h
      obtain ⟨s1, -, h2⟩ := stop_bind.1 h
      obtain ⟨s, hs⟩ := run_line D n ts hl' _ _ h2
      exact ⟨_, .word hlook.2 hs⟩
    | long body =>
      rw [ht] at hlook
      obtain ⟨rfl, hb⟩ := hlook
      rw [run_long c seen hb] at h
      obtain ⟨o, h1, h2⟩ := stop_bind.1 h
      unfold Cmd.longArg at h1
      cases hk : c.long (splitEq body).1 with
      | none => rw [hk] at h1; cases h1
      | some k =>
        obtain ⟨e, hn, rfl⟩ := (D.long _ k).1 hk
        rw [hk] at h1
        dsimp only at h1
        rw [D.takes e hn.1] at h1
        have hsp := splitEq_inv body
        cases hv : e.value with
        | some P =>
          have hvs : e.value.isSome = true := by rw [hv]; rfl
          rw [hv] at h1
          simp only [Option.isSome_some, if_true] at h1
          cases h2v : (splitEq body).2 with
          | some v =>
            rw [h2v] at h1
            simp only at h1
            cases hreact : c.react seen e.key v with
            | error x => rw [hreact] at h1; cases h1
            | ok s1 =>
              rw [hreact] at h1
              rw [← Except.ok.inj h1] at h2
              obtain ⟨s, hs⟩ := run_line D n ts hl' _ _ h2
              have e1 := hsp.2 v h2v
              rw [e1, ← List.append_assoc]
              exact ⟨_, .longEq hn hvs hs⟩
          | none =>
            rw [h2v] at h1
            simp only at h1
            rw [← Except.ok.inj h1] at h2
            obtain ⟨v, ts', s, rfl, hp, hs⟩ := sep _ _ h2
            rw [hsp.1 h2v] at hn
            exact ⟨_, .longSep hn hvs hp hs⟩
        | none =>
          rw [hv] at h1
          simp only [Option.isSome_none, Bool.false_eq_true, if_false] at h1
          cases h2v : (splitEq body).2 with
          | some v => rw [h2v] at h1; cases h1
          | none =>
            rw [h2v] at h1
            simp only at h1
            cases hreact : c.react seen e.key [] with
            | error x => rw [hreact] at h1; cases h1
            | ok s1 =>
              rw [hreact] at h1
              rw [← Except.ok.inj h1] at h2
              obtain ⟨s, hs⟩ := run_line D n ts hl' _ _ h2
              rw [hsp.1 h2v] at hn
              exact ⟨_, .flag hn hv hs⟩
    | short ch cs =>
      rw [ht] at hlook
      obtain ⟨rfl, hb⟩ := hlook
      rw [run_short c seen hb] at h
      obtain ⟨o, h1, h2⟩ := stop_bind.1 h
      have hinv := shorts_inv D _ _ _ h1
      cases o with
      | done s1 =>
        obtain ⟨s, hs⟩ := run_line D n ts hl' _ _ h2
        rcases hinv with ⟨b, hb'⟩ | ⟨ns1, n', rest, b, e, e1, h3, h4, h5, h6⟩
        · exact ⟨_, .bunch (by simp) hb' hs⟩
        · rw [e1]
          cases rest with
          | nil => exact absurd rfl h6
          | cons r rest =>
            by_cases hr : r = '='
            · subst hr; exact ⟨_, .shortEq h3 h4 h5 hs⟩
            · exact ⟨_, .shortJoined h3 h4 h5 (by simp) (by simpa using hr) hs⟩
      | pending s1 k =>
        obtain ⟨v, ts', s, rfl, hp, hs⟩ := sep _ _ h2
        obtain ⟨ns1, n', b, e, e1, h3, h4, h5, h6⟩ := hinv
        rw [e1]
        exact ⟨_, .shortSep h3 h4 h5 hp hs⟩

theorem reactAll_ok (c : Cmd K) : ∀ (s : Said K) (seen out : Seen K), reactAll c seen s = .ok out ↔
    out = seen ++ s ∧ (∀ x ∈ s, c.stop x.1 = none ∧ c.valid x.1 x.2 = true ∧ x.1 ∉ seen.map Prod.fst) ∧ (s.map Prod.fst).Nodup
  | [], seen, out => by
    rw [reactAll]
    constructor
    · intro h; rw [Except.ok.inj h]; simp
    · rintro ⟨h, -⟩; rw [h]; simp
  | x :: s, seen, out => by
    have key : ∀ seen', c.react seen x.1 x.2 = .ok seen' ↔ seen' = seen ++ [x] ∧ c.stop x.1 = none ∧ c.valid x.1 x.2 = true ∧ x.1 ∉ seen.map Prod.fst := by
      intro seen'
      have hany : (seen.any fun y => decide (y.1 = x.1)) = true ↔ x.1 ∈ seen.map Prod.fst := by
        simp only [List.any_eq_true, decide_eq_true_eq, List.mem_map]
      unfold Cmd.react
      cases hs : c.stop x.1 with
      | some st => simp
      | none =>
        dsimp only
        by_cases ha : (seen.any fun y => decide (y.1 = x.1)) = true
        · rw [if_pos ha]
          have := hany.1 ha
          constructor
          · intro h; cases h
          · rintro ⟨_, _, _, h⟩; exact absurd this h
        · rw [if_neg ha]
          have hna : x.1 ∉ seen.map Prod.fst := fun h => ha (hany.2 h)
          by_cases hv : c.valid x.1 x.2 = true
          · rw [if_pos hv]
            constructor
            · intro h; exact ⟨(Except.ok.inj h).symm, rfl, hv, hna⟩
            · rintro ⟨h, -⟩; rw [h]
          · rw [if_neg hv]
            constructor
            · intro h; cases h
            · rintro ⟨_, _, h, _⟩; exact absurd h hv
    rw [reactAll, stop_bind]
    constructor
    · rintro ⟨seen', h1, h2⟩
      obtain ⟨rfl, k1, k2, k3⟩ := (key seen').1 h1
      obtain ⟨g1, g2, g3⟩ := (reactAll_ok c s _ out).1 h2
      refine ⟨by rw [g1]; simp, ?_, ?_⟩
      · intro y hy
        rcases List.mem_cons.1 hy with rfl | hy
        · exact ⟨k1, k2, k3⟩
        · obtain ⟨i1, i2, i3⟩ := g2 y hy
          rw [List.map_append, List.mem_append, not_or] at i3
          exact ⟨i1, i2, i3.1⟩
      · rw [List.map_cons, List.nodup_cons]
        refine ⟨fun hm => ?_, g3⟩
        obtain ⟨y, hy, e⟩ := List.mem_map.1 hm
        refine (g2 y hy).2.2 ?_
        rw [e]; simp
    · rintro ⟨rfl, h2, h3⟩
      rw [List.map_cons, List.nodup_cons] at h3
      obtain ⟨k1, k2, k3⟩ := h2 x (by simp)
      refine ⟨seen ++ [x], (key _).2 ⟨rfl, k1, k2, k3⟩, (reactAll_ok c s _ _).2 ⟨by simp, fun y hy => ?_, h3.2⟩⟩
      obtain ⟨i1, i2, i3⟩ := h2 y (by simp [hy])
      refine ⟨i1, i2, ?_⟩
      rw [List.map_append, List.mem_append, not_or]
      refine ⟨i3, fun hm => h3.1 ?_⟩
      rw [List.map_singleton, List.mem_singleton] at hm
      rw [← hm]
      exact List.mem_map.2 ⟨y, hy, rfl⟩

theorem accepts_iff {m : Manual K} {c : Cmd K} (D : Describes m c) (x : K × List Char) : m.Accepts x ↔ c.valid x.1 x.2 = true := by
  unfold Manual.Accepts
  rcases D.cover x.1 with h | ⟨e, he, h⟩
  · rw [h, D.validIn]
    constructor
    · rintro (⟨_, h⟩ | ⟨e, he, h', _⟩)
      · exact h
      · exact absurd h' (D.fresh e he)
    · exact fun h => Or.inl ⟨rfl, h⟩
  · rw [← h, D.valid e he]
    constructor
    · rintro (⟨h', _⟩ | ⟨e', he', h1, h2⟩)
      · exact absurd h' (D.fresh e he)
      · rw [D.unique e' he' e he h1] at h2; exact h2
    · exact fun h' => Or.inr ⟨e, he, rfl, h'⟩

theorem stops_iff {m : Manual K} {c : Cmd K} (D : Describes m c) (x : K × List Char) (st : Stop) : m.Stops x st ↔ c.stop x.1 = some st := by
  unfold Manual.Stops
  rcases D.cover x.1 with h | ⟨e, he, h⟩
  · rw [h, D.stopIn]
    constructor
    · rintro ⟨e, he, h', _⟩; exact absurd h' (D.fresh e he)
    · intro h; cases h
  · rw [← h, D.stop e he]
    constructor
    · rintro ⟨e', he', h1, h2⟩
      rw [D.unique e' he' e he h1] at h2; exact h2
    · exact fun h' => ⟨e, he, rfl, h'⟩

theorem inOrder_iff {m : Manual K} {c : Cmd K} (D : Describes m c) (s : Said K) : m.InOrder s ↔
    (∀ x ∈ s, c.stop x.1 = none ∧ c.valid x.1 x.2 = true) ∧ (s.map Prod.fst).Nodup := by
  unfold Manual.InOrder
  have : ∀ x : K × List Char, (m.Accepts x ∧ ∀ st, ¬ m.Stops x st) ↔ c.stop x.1 = none ∧ c.valid x.1 x.2 = true := by
    intro x
    rw [accepts_iff D, and_comm]
    refine and_congr_left fun _ => ?_
    cases hs : c.stop x.1 with
    | none =>
      refine ⟨fun _ => rfl, fun _ st h => ?_⟩
      rw [stops_iff D, hs] at h; cases h
    | some st =>
      refine ⟨fun h => absurd ((stops_iff D x st).2 hs) (h st), fun h => by cases h⟩
  simp only [this]

/-- **The parser and the grammar.** Exactly the ways to say something in order are accepted. -/
theorem run_iff {m : Manual K} {c : Cmd K} (D : Describes m c) (ts : List Tok) (s : Said K) :
    c.run none false [] ts = .ok s ↔ Line m ts s ∧ m.InOrder s := by
  constructor
  · intro h
    obtain ⟨s', hs'⟩ := run_line D ts.length ts (Nat.le_refl _) [] s h
    rw [line_run D hs'] at h
    obtain ⟨h1, h2, h3⟩ := (reactAll_ok c s' [] s).1 h
    rw [List.nil_append] at h1
    subst h1
    exact ⟨hs', (inOrder_iff D s).2 ⟨fun x hx => ⟨(h2 x hx).1, (h2 x hx).2.1⟩, h3⟩⟩
  · rintro ⟨h1, h2⟩
    obtain ⟨g1, g2⟩ := (inOrder_iff D s).1 h2
    rw [line_run D h1]
    exact (reactAll_ok c s [] s).2 ⟨rfl, fun x hx => ⟨(g1 x hx).1, (g1 x hx).2, by simp⟩, g2⟩

/-- The first thing that is not in order decides how the program ends. -/
theorem run_first {m : Manual K} {c : Cmd K} (D : Describes m c) {ts : List Tok} {s1 s2 : Said K} {x : K × List Char} (h : Line m ts (s1 ++ x :: s2))
    (h1 : m.InOrder s1) : (∀ st, m.Stops x st → c.run none false [] ts = .error st) ∧
      ((∀ st, ¬ m.Stops x st) → ¬ m.Accepts x ∨ x.1 ∈ s1.map Prod.fst → c.run none false [] ts = .error .usage) := by
  obtain ⟨g1, g2⟩ := (inOrder_iff D s1).1 h1
  have e := (reactAll_ok c s1 [] s1).2 ⟨rfl, fun x hx => ⟨(g1 x hx).1, (g1 x hx).2, by simp⟩, g2⟩
  rw [line_run D h, reactAll_append, e]
  show (∀ st, m.Stops x st → (c.react s1 x.1 x.2 >>= _) = _) ∧ (_ → _ → (c.react s1 x.1 x.2 >>= _) = _)
  have hany : (s1.any fun y => decide (y.1 = x.1)) = true ↔ x.1 ∈ s1.map Prod.fst := by
    simp only [List.any_eq_true, decide_eq_true_eq, List.mem_map]
  constructor
  · intro st hst
    unfold Cmd.react
    rw [(stops_iff D x st).1 hst]
    rfl
  · intro hno hbad
    have hs : c.stop x.1 = none := by
      cases hs : c.stop x.1 with
      | none => rfl
      | some st => exact absurd ((stops_iff D x st).2 hs) (hno st)
    unfold Cmd.react
    rw [hs]
    dsimp only
    by_cases ha : (s1.any fun y => decide (y.1 = x.1)) = true
    · rw [if_pos ha]; rfl
    · rw [if_neg ha]
      have hv : ¬ c.valid x.1 x.2 = true := by
        rcases hbad with h | h
        · rwa [accepts_iff D] at h
        · exact absurd (hany.2 h) ha
      rw [if_neg hv]; rfl

/-! ### How a run can end early -/

theorem react_stop {c : Cmd K} {seen : Seen K} {k : K} {v : List Char} {st : Stop} (h : c.react seen k v = .error st) (hst : st ≠ .usage) : c.stop k = some st := by
  unfold Cmd.react at h
  cases hs : c.stop k with
  | some st' => rw [hs] at h; rw [Except.error.inj h]
  | none =>
    rw [hs] at h
    dsimp only at h
    split at h
    · exact absurd (Except.error.inj h).symm hst
    · split at h
      · cases h
      · exact absurd (Except.error.inj h).symm hst

theorem stop_bind_error {ε α β : Type} {x : Except ε α} {f : α → Except ε β} {e : ε} : (x >>= f) = .error e ↔ x = .error e ∨ ∃ a, x = .ok a ∧ f a = .error e := by
  cases x with
  | error e' =>
    have e2 : ((Except.error e' : Except ε α) >>= f) = .error e' := rfl
    rw [e2]
    refine ⟨fun h => Or.inl (congrArg _ (Except.error.inj h)), ?_⟩
    rintro (h | ⟨a, h, _⟩)
    · exact congrArg _ (Except.error.inj h)
    · cases h
  | ok a =>
    refine ⟨fun h => Or.inr ⟨a, rfl, h⟩, ?_⟩
    rintro (h | ⟨a', h, h'⟩)
    · cases h
    · rw [← Except.ok.inj h] at h'; exact h'

theorem map_error {ε α β : Type} {x : Except ε α} {f : α → β} {e : ε} (h : x.map f = .error e) : x = .error e := by
  cases x with
  | error e' => exact congrArg _ (Except.error.inj h)
  | ok a => cases h

theorem shorts_stop {m : Manual K} {c : Cmd K} (D : Describes m c) {st : Stop} (hst : st ≠ .usage) : ∀ (ns : List Char) (seen : Seen K),
    c.shorts seen ns = .error st → ∃ e ∈ m.entries, e.stop = some st ∧ ∃ n ∈ ns, e.short = some n
  | [], seen, h => by rw [Cmd.shorts] at h; cases h
  | n :: ns, seen, h => by
    rw [Cmd.shorts] at h
    cases hk : c.short n with
    | none => rw [hk] at h; exact absurd (Except.error.inj h).symm hst
    | some k =>
      obtain ⟨e, hn, rfl⟩ := (D.short n k).1 hk
      rw [hk] at h
      dsimp only at h
      rw [D.takes e hn.1] at h
      by_cases hv : e.value.isSome = true
      · rw [if_pos hv] at h
        by_cases hr : ns = []
        · rw [if_pos hr] at h; cases h
        · rw [if_neg hr] at h
          have := react_stop (map_error h) hst
          rw [D.stop e hn.1, D.stopFlag e hn.1 hv] at this
          cases this
      · rw [if_neg hv] at h
        cases hreact : c.react seen e.key [] with
        | error x =>
          rw [hreact] at h
          obtain rfl := Except.error.inj h
          have := react_stop hreact hst
          rw [D.stop e hn.1] at this
          exact ⟨e, hn.1, this, n, by simp, hn.2⟩
        | ok s =>
          rw [hreact] at h
          obtain ⟨e', h1, h2, n', h3, h4⟩ := shorts_stop D hst ns s h
          exact ⟨e', h1, h2, n', by simp [h3], h4⟩

theorem shorts_pending {m : Manual K} {c : Cmd K} (D : Describes m c) {ns : List Char} {seen seen' : Seen K} {k : K}
    (h : c.shorts seen ns = .ok (.pending seen' k)) : c.stop k = none := by
  obtain ⟨ns1, n, b, e, _, _, h3, h4, h5⟩ := shorts_inv D ns seen _ h
  rw [← h5, D.stop e h3.1, D.stopFlag e h3.1 h4]

theorem run_trailing_stop {m : Manual K} {c : Cmd K} (D : Describes m c) {st : Stop} (hst : st ≠ .usage) : ∀ (ts : List Tok) (seen : Seen K),
    c.run none true seen ts ≠ .error st
  | [], seen => by rw [Cmd.run]; intro h; cases h
  | t :: ts, seen => by
    rw [Cmd.run.eq_def]
    simp only [if_true, Option.getD_none]
    intro h
    cases hreact : c.react seen c.input t with
    | error x =>
      rw [hreact] at h
      obtain rfl := Except.error.inj h
      have := react_stop hreact hst
      rw [D.input, D.stopIn] at this; cases this
    | ok s =>
      rw [hreact] at h
      exact run_trailing_stop D hst ts s h

/-- Only a word that names it brings the help or the version. -/
theorem run_stop {m : Manual K} {c : Cmd K} (D : Describes m c) {st : Stop} (hst : st ≠ .usage) : ∀ (ts : List Tok) (pend : Option K) (seen : Seen K),
    (∀ k ∈ pend, c.stop k = none) → c.run pend false seen ts = .error st →
    ∃ e ∈ m.entries, e.stop = some st ∧ ∃ t ∈ ts, Asks e t
  | [], none, seen, _, h => by rw [Cmd.run] at h; cases h
  | [], some k, seen, _, h => by rw [Cmd.run] at h; exact absurd (Except.error.inj h).symm hst
  | t :: ts, pend, seen, hp, h => by
    have up : (∃ e ∈ m.entries, e.stop = some st ∧ ∃ t ∈ ts, Asks e t) → ∃ e ∈ m.entries, e.stop = some st ∧ ∃ t' ∈ t :: ts, Asks e t' := by
      rintro ⟨e, h1, h2, t', h3, h4⟩
      exact ⟨e, h1, h2, t', by simp [h3], h4⟩
    have hlook := look_inv t
    cases ht : look t with
    | value v =>
      rw [ht] at hlook
      rw [run_plain c pend seen hlook.2] at h
      rcases stop_bind_error.1 h with h | ⟨s, _, h⟩
      · have := react_stop h hst
        cases pend with
        | none => rw [Option.getD_none, D.input, D.stopIn] at this; cases this
        | some k => rw [Option.getD_some, hp k rfl] at this; cases this
      · exact up (run_stop D hst ts none s (fun k hk => by cases hk) h)
    | escape =>
      rw [Cmd.run.eq_def] at h
      simp only [Bool.false_eq_true, if_false, ht] at h
      cases pend with
      | some k => exact absurd (Except.error.inj h).symm hst
      | none => exact absurd h (run_trailing_stop D hst ts seen)
    | long body =>
      rw [ht] at hlook
      obtain ⟨rfl, hb⟩ := hlook
      cases pend with
      | some k =>
        rw [Cmd.run.eq_def] at h
        simp only [Bool.false_eq_true, if_false, ht] at h
        exact absurd (Except.error.inj h).symm hst
      | none =>
        rw [run_long c seen hb] at h
        rcases stop_bind_error.1 h with h | ⟨o, ho, h⟩
        · unfold Cmd.longArg at h
          cases hk : c.long (splitEq body).1 with
          | none => rw [hk] at h; exact absurd (Except.error.inj h).symm hst
          | some k =>
            obtain ⟨e, hn, rfl⟩ := (D.long _ k).1 hk
            rw [hk] at h
            dsimp only at h
            rw [D.takes e hn.1] at h
            by_cases hv : e.value.isSome = true
            · rw [if_pos hv] at h
              cases h2 : (splitEq body).2 with
              | none => rw [h2] at h; cases h
              | some v =>
                rw [h2] at h
                have := react_stop (map_error h) hst
                rw [D.stop e hn.1, D.stopFlag e hn.1 hv] at this
                cases this
            · rw [if_neg hv] at h
              cases h2 : (splitEq body).2 with
              | some v => rw [h2] at h; exact absurd (Except.error.inj h).symm hst
              | none =>
                rw [h2] at h
                have := react_stop (map_error h) hst
                rw [D.stop e hn.1] at this
                rw [(splitEq_inv body).1 h2] at hn
                exact ⟨e, hn.1, this, _, List.mem_cons_self, Or.inl ⟨body, hn.2, rfl⟩⟩
        · cases o with
          | done s => exact up (run_stop D hst ts none s (fun k hk => by cases hk) h)
          | pending s k =>
            refine up (run_stop D hst ts (some k) s (fun k' hk => ?_) h)
            obtain rfl := Option.some.inj hk
            unfold Cmd.longArg at ho
            cases hk' : c.long (splitEq body).1 with
            | none => rw [hk'] at ho; cases ho
            | some k2 =>
              obtain ⟨e, hn, rfl⟩ := (D.long _ k2).1 hk'
              rw [hk'] at ho
              dsimp only at ho
              rw [D.takes e hn.1] at ho
              by_cases hv : e.value.isSome = true
              · rw [if_pos hv] at ho
                cases h2 : (splitEq body).2 with
                | none =>
                  rw [h2] at ho
                  injection ho with ho
                  injection ho with _ ho
                  rw [← ho, D.stop e hn.1, D.stopFlag e hn.1 hv]
                | some v =>
                  rw [h2] at ho
                  dsimp only at ho
                  cases hr : c.react seen e.key v with
                  | error x => rw [hr] at ho; cases ho
                  | ok x => rw [hr] at ho; cases ho
              · rw [if_neg hv] at ho
                cases h2 : (splitEq body).2 with
                | some v => rw [h2] at ho; cases ho
                | none =>
                  rw [h2] at ho
                  dsimp only at ho
                  cases hr : c.react seen e.key [] with
                  | error x => rw [hr] at ho; cases ho
                  | ok x => rw [hr] at ho; cases ho
    | short ch cs =>
      rw [ht] at hlook
      obtain ⟨rfl, hb⟩ := hlook
      cases pend with
      | some k =>
        rw [Cmd.run.eq_def] at h
        simp only [Bool.false_eq_true, if_false, ht] at h
        exact absurd (Except.error.inj h).symm hst
      | none =>
        rw [run_short c seen hb] at h
        rcases stop_bind_error.1 h with h | ⟨o, ho, h⟩
        · obtain ⟨e, h1, h2, n, h3, h4⟩ := shorts_stop D hst _ _ h
          exact ⟨e, h1, h2, _, List.mem_cons_self, Or.inr ⟨ch :: cs, n, h4, rfl, fun e => hb (Option.some.inj e), h3⟩⟩
        · cases o with
          | done s => exact up (run_stop D hst ts none s (fun k hk => by cases hk) h)
          | pending s k =>
            refine up (run_stop D hst ts (some k) s (fun k' hk => ?_) h)
            obtain rfl := Option.some.inj hk
            exact shorts_pending D ho

/-- If nothing said ends the program, it is read or refused. -/
theorem reactAll_noStop (c : Cmd K) : ∀ (s : Said K) (seen : Seen K), (∀ x ∈ s, c.stop x.1 = none) →
    (∃ out, reactAll c seen s = .ok out) ∨ reactAll c seen s = .error .usage
  | [], seen, _ => Or.inl ⟨seen, rfl⟩
  | x :: s, seen, h => by
    rw [reactAll]
    cases hr : c.react seen x.1 x.2 with
    | error st =>
      by_cases hst : st = .usage
      · rw [hst]; exact Or.inr rfl
      · have := react_stop hr hst
        rw [h x (by simp)] at this; cases this
    | ok seen' => exact reactAll_noStop c s seen' fun y hy => h y (by simp [hy])

theorem run_noStop {m : Manual K} {c : Cmd K} (D : Describes m c) {ts : List Tok} {s : Said K} (h : Line m ts s) (hs : ∀ x ∈ s, ∀ st, ¬ m.Stops x st) :
    (m.InOrder s ∧ c.run none false [] ts = .ok s) ∨ (¬ m.InOrder s ∧ c.run none false [] ts = .error .usage) := by
  have hs' : ∀ x ∈ s, c.stop x.1 = none := by
    intro x hx
    cases hc : c.stop x.1 with
    | none => rfl
    | some st => exact absurd ((stops_iff D x st).2 hc) (hs x hx st)
  by_cases ho : m.InOrder s
  · exact Or.inl ⟨ho, (run_iff D ts s).2 ⟨h, ho⟩⟩
  · refine Or.inr ⟨ho, ?_⟩
    have e := line_run D h []
    rcases reactAll_noStop c s [] hs' with ⟨out, h1⟩ | h1
    · rw [h1] at e
      obtain ⟨g1, -⟩ := (reactAll_ok c s [] out).1 h1
      rw [List.nil_append] at g1
      rw [g1] at e
      exact absurd ((run_iff D ts s).1 e).2 ho
    · rw [e, h1]

/-! ### Values -/

theorem value_iff {s : Seen K} (hn : (s.map Prod.fst).Nodup) (k : K) (v : List Char) : s.value k = some v ↔ (k, v) ∈ s := by
  unfold Seen.value
  induction s with
  | nil => simp
  | cons x s ih =>
    rw [List.map_cons, List.nodup_cons] at hn
    rw [List.find?_cons]
    by_cases hx : x.1 = k
    · rw [decide_eq_true hx]
      constructor
      · intro h
        have : x = (k, v) := Prod.ext hx (Option.some.inj h)
        rw [this]; simp
      · intro h
        rcases List.mem_cons.1 h with rfl | h
        · rfl
        · exact absurd (List.mem_map.2 ⟨_, h, hx.symm⟩) hn.1
    · rw [decide_eq_false hx]
      rw [ih hn.2]
      constructor
      · exact fun h => by simp [h]
      · intro h
        rcases List.mem_cons.1 h with rfl | h
        · exact absurd rfl hx
        · exact h

theorem value_none {s : Seen K} (hn : (s.map Prod.fst).Nodup) (k : K) : s.value k = none ↔ ∀ v, (k, v) ∉ s := by
  rw [Option.eq_none_iff_forall_ne_some]
  exact forall_congr' fun v => not_congr (value_iff hn k v)

theorem flagged_iff {s : Seen K} (hn : (s.map Prod.fst).Nodup) (k : K) (b : Bool) : Flagged s k b ↔ b = s.has k := by
  have : s.has k = true ↔ ∃ v, (k, v) ∈ s := by
    unfold Seen.has
    rw [Option.isSome_iff_exists]
    exact exists_congr fun v => value_iff hn k v
  unfold Flagged
  rw [← this]
  cases b <;> cases s.has k <;> simp

theorem chosen_iff {α : Type} {s : Seen K} (hn : (s.map Prod.fst).Nodup) (k : K) (P : List Char → Option α) (R : List Char → α → Prop) (d x : α)
    (h : ∀ v, (k, v) ∈ s → ∃ y, P v = some y ∧ ∀ z, R v z ↔ z = y) : Chosen s k R d x ↔ x = ((s.value k).bind P).getD d := by
  unfold Chosen
  cases hv : s.value k with
  | none =>
    have := (value_none hn k).1 hv
    constructor
    · rintro (⟨v, h1, _⟩ | ⟨_, h2⟩)
      · exact absurd h1 (this v)
      · exact h2
    · exact fun h => Or.inr ⟨this, h⟩
  | some v =>
    have hm := (value_iff hn k v).1 hv
    obtain ⟨y, h1, h2⟩ := h v hm
    rw [Option.bind_some, h1, Option.getD_some]
    constructor
    · rintro (⟨v', h3, h4⟩ | ⟨h3, _⟩)
      · have : v' = v := Option.some.inj (((value_iff hn k v').2 h3).symm.trans hv)
        subst this
        exact (h2 x).1 h4
      · exact absurd hm (h3 v)
    · exact fun h => Or.inl ⟨v, hm, (h2 x).2 h⟩

end Atsc
