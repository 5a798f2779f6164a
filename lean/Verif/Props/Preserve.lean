import Verif.Preserve
/-!
C29: preserve rules.

Specification: a rule is a pattern (or pair of patterns) with a verdict.  A plain name or `*` is looked up, the latest rule for the same
thing counting; everything else is a pattern rule, of which all matching ones count.
-/
namespace Verif

/-- The verdict of the latest rule that `is` holds of. -/
def latest {α : Type} (is : α → Bool) (rules : List (α × Bool)) : Option Bool := ((rules.filter fun r => is r.1).getLast?).map (·.2)

/-- The decision: a base verdict and the verdicts of the matching patterns. -/
def verdict (base : Option Bool) (pats : List Bool) : Prop := base ≠ some false ∧ false ∉ pats ∧ (base = some true ∨ true ∈ pats)

theorem patLoop_none {α : Type} (hit : α → Bool) : ∀ (ps : List (α × Bool)) (v : Option Bool),
    patLoop hit ps v = none ↔ ∃ p ∈ ps, hit p.1 = true ∧ p.2 = false
  | [], v => by simp [patLoop]
  | p :: ps, v => by
    simp only [patLoop]
    by_cases hh : hit p.1 = true
    · rw [if_pos hh]
      cases hp : p.2 with
      | true => simp [patLoop_none hit ps, hp]
      | false => simp [hp, hh]
    · rw [if_neg hh]; simp [patLoop_none hit ps, hh]

theorem patLoop_some {α : Type} (hit : α → Bool) : ∀ (ps : List (α × Bool)) (v w : Option Bool), patLoop hit ps v = some w →
    (w = some true ↔ v = some true ∨ ∃ p ∈ ps, hit p.1 = true)
  | [], v, w, h => by simp [patLoop] at h; simp [h]
  | p :: ps, v, w, h => by
    simp only [patLoop] at h
    by_cases hh : hit p.1 = true
    · rw [if_pos hh] at h
      cases hp : p.2 with
      | true =>
        rw [hp, if_pos rfl] at h
        have := patLoop_some hit ps _ w h
        simp [this, hh]
      | false => simp [hp] at h
    · rw [if_neg hh] at h
      have := patLoop_some hit ps _ w h
      simp [this, hh]

theorem decideKey_iff {α : Type} (hit : α → Bool) (ps : List (α × Bool)) (v : Option Bool) :
    decideKey hit ps v = true ↔ verdict v ((ps.filter fun p => hit p.1).map (·.2)) := by
  unfold decideKey verdict
  by_cases hv : v = some false
  · simp [hv]
  · rw [if_neg hv]
    cases hp : patLoop hit ps v with
    | none =>
      obtain ⟨p, h1, h2, h3⟩ := (patLoop_none hit ps v).1 hp
      simp only [Bool.false_eq_true, false_iff]
      intro h
      refine h.2.1 ?_
      simp only [List.mem_map, List.mem_filter]
      exact ⟨p, ⟨h1, h2⟩, h3⟩
    | some w =>
      have hn : ∀ p ∈ ps, hit p.1 = true → p.2 = true := by
        intro p h1 h2
        cases h3 : p.2 with
        | true => rfl
        | false => have := (patLoop_none hit ps v).2 ⟨p, h1, h2, h3⟩; rw [this] at hp; cases hp
      have := patLoop_some hit ps v w hp
      simp only [beq_iff_eq, this]
      constructor
      · intro h
        refine ⟨hv, ?_, ?_⟩
        · simp only [List.mem_map, List.mem_filter]
          rintro ⟨p, ⟨h1, h2⟩, h3⟩
          rw [hn p h1 h2] at h3; cases h3
        · refine h.imp id ?_
          rintro ⟨p, h1, h2⟩
          simp only [List.mem_map, List.mem_filter]
          exact ⟨p, ⟨h1, h2⟩, hn p h1 h2⟩
      · rintro ⟨_, _, h⟩
        refine h.imp id ?_
        simp only [List.mem_map, List.mem_filter]
        rintro ⟨p, ⟨h1, h2⟩, _⟩
        exact ⟨p, h1, h2⟩

theorem latest_append {α : Type} (is : α → Bool) (rules : List (α × Bool)) (r : α × Bool) :
    latest is (rules ++ [r]) = if is r.1 then some r.2 else latest is rules := by
  unfold latest
  rw [List.filter_append]
  by_cases h : is r.1 = true
  · simp [h]
  · simp [h]

theorem revInd {α : Type} {P : List α → Prop} (nil : P []) (snoc : ∀ l a, P l → P (l ++ [a])) (l : List α) : P l := by
  have : ∀ l : List α, P l.reverse := by
    intro l
    induction l with
    | nil => exact nil
    | cons a l ih => rw [List.reverse_cons]; exact snoc _ _ ih
  simpa using this l.reverse

theorem lookup_const (keys : List (List Nat)) (k : List Nat) :
    (keys.map fun k => (k, true)).lookup k = if k ∈ keys then some true else none := by
  induction keys with
  | nil => simp
  | cons a keys ih =>
    simp only [List.map_cons, List.lookup]
    by_cases h : k = a
    · simp [h]
    · have : (k == a) = false := by simpa using h
      simp [this, ih, h]

/-- Names of variables (globals): a name is preserved iff its own verdict (the latest rule for exactly this name, else built-in names are
preserved, else the latest rule `*`) is not negative, no matching pattern is negative, and one of them is positive. -/
theorem C29_names (builtins : List (List Nat)) (rules : List (List Nat × Bool)) (mat : List Nat → List Nat → Bool) (key : List Nat)
    (hk : hasStar key = false) :
    (rules.foldl (fun m r => m.set r.1 r.2) (IncExc.new builtins)).contains mat key = true ↔
      verdict (((latest (· == key) rules).or (if key ∈ builtins then some true else none)).or (latest (· == [42]) rules))
        ((rules.filter fun r => hasStar r.1 && r.1 != [42] && mat r.1 key).map (·.2)) := by
  have hne : key ≠ [42] := by rintro rfl; simp [hasStar] at hk
  obtain ⟨m, hm⟩ : ∃ m, m = rules.foldl (fun m r => m.set r.1 r.2) (IncExc.new builtins) := ⟨_, rfl⟩
  have inv : ∀ rules : List (List Nat × Bool), ∀ m, m = rules.foldl (fun m r => m.set r.1 r.2) (IncExc.new builtins) →
      m.dict.lookup key = (latest (· == key) rules).or (if key ∈ builtins then some true else none) ∧
      m.dflt = latest (· == [42]) rules ∧ m.regexs = rules.filter fun r => hasStar r.1 && r.1 != [42] := by
    intro rules
    induction rules using revInd with
    | nil => rintro m rfl; simp [IncExc.new, latest, lookup_const]
    | snoc rules r ih =>
      rintro m rfl
      obtain ⟨h1, h2, h3⟩ := ih _ rfl
      simp only [List.foldl_append, List.foldl_cons, List.foldl_nil, latest_append, List.filter_append]
      generalize rules.foldl (fun m r => m.set r.1 r.2) (IncExc.new builtins) = m at h1 h2 h3
      unfold IncExc.set
      by_cases hstar : r.1 = [42]
      · rw [if_pos hstar]
        have : ([42] == key) = false := by simpa using fun h => hne h.symm
        simp [hstar, this, h1, h3]
      · rw [if_neg hstar]
        have hs2 : (r.1 == [42]) = false := by simpa using hstar
        cases hh : hasStar r.1 with
        | false =>
          simp only [Bool.not_false, if_true, hs2]
          by_cases hkey : r.1 = key
          · simp [hkey, List.lookup, h2, h3, hk]
          · have h4 : (key == r.1) = false := by simpa using fun h => hkey h.symm
            have h5 : (r.1 == key) = false := by simpa using hkey
            simp [List.lookup, h4, h5, h1, h2, h3, hh]
        | true =>
          have hkey : (r.1 == key) = false := by
            rw [beq_eq_false_iff_ne]; rintro h; rw [h, hk] at hh; cases hh
          simp [hs2, hh, hkey, h1, h2, h3, hstar]
  obtain ⟨h1, h2, h3⟩ := inv rules m hm
  rw [← hm]
  unfold IncExc.contains
  rw [decideKey_iff, h1, h2, h3, List.filter_filter]
  have : (fun a : List Nat × Bool => mat a.1 key && (hasStar a.1 && a.1 != [42])) =
      (fun r => hasStar r.1 && r.1 != [42] && mat r.1 key) := by
    funext a; rw [Bool.and_comm]
  rw [this]

/-- A matching negative pattern wins, whatever the other rules and their order. -/
theorem C29_negative_wins (builtins : List (List Nat)) (rules : List (List Nat × Bool)) (mat : List Nat → List Nat → Bool) (key : List Nat)
    (hk : hasStar key = false) (pat : List Nat) (hr : (pat, false) ∈ rules) (hs : hasStar pat = true) (hne : pat ≠ [42])
    (hm : mat pat key = true) : (rules.foldl (fun m r => m.set r.1 r.2) (IncExc.new builtins)).contains mat key = false := by
  rw [Bool.eq_false_iff]
  intro h
  rw [C29_names builtins rules mat key hk] at h
  refine h.2.1 ?_
  simp only [List.mem_map, List.mem_filter, Bool.and_eq_true, bne_iff_ne]
  exact ⟨(pat, false), ⟨hr, ⟨hs, hne⟩, hm⟩, rfl⟩

/-- The latest rule for the very name, if negative, wins too. -/
theorem C29_negative_name_wins (builtins : List (List Nat)) (rules rest : List (List Nat × Bool)) (mat : List Nat → List Nat → Bool)
    (key : List Nat) (hk : hasStar key = false) (hrest : ∀ r ∈ rest, r.1 ≠ key) :
    ((rules ++ (key, false) :: rest).foldl (fun m r => m.set r.1 r.2) (IncExc.new builtins)).contains mat key = false := by
  rw [Bool.eq_false_iff]
  intro h
  rw [C29_names builtins _ mat key hk] at h
  refine h.1 ?_
  have : latest (· == key) (rules ++ (key, false) :: rest) = some false := by
    unfold latest
    have hnil : (rest.filter fun r => r.1 == key) = [] := by
      rw [List.filter_eq_nil_iff]; intro r hr; simpa using hrest r hr
    simp [List.filter_append, hnil]
  simp [this]

/-- A rule about pairs that is a pattern, not one of the four plain forms `t.m`, `t.*`, `*.m`, `*.*`. -/
def isPairPattern (r : List Nat × List Nat) : Bool :=
  (hasStar r.1 && r.1 != [42]) || (hasStar r.2 && r.2 != [42])

/-- Members: the verdict is that of the latest rule for exactly this table and member, else for all members of this table, else for this
member of all tables (built-in members are preserved), else for everything; patterns as for names. -/
theorem C29_members (builtins : List (List Nat)) (rules : List ((List Nat × List Nat) × Bool)) (mat : List Nat → List Nat → Bool)
    (table member : List Nat) (ht : hasStar table = false) (hm : hasStar member = false) :
    (rules.foldl (fun m r => m.set r.1.1 r.1.2 r.2) (PairIncExc.new builtins)).contains mat table member = true ↔
      verdict ((latest (· == (table, member)) rules).or ((latest (· == (table, [42])) rules).or
          (((latest (· == ([42], member)) rules).or (if member ∈ builtins then some true else none)).or (latest (· == ([42], [42])) rules))))
        ((rules.filter fun r => isPairPattern r.1 && (mat r.1.1 table && mat r.1.2 member)).map (·.2)) := by
  have hne : table ≠ [42] := by rintro rfl; simp [hasStar] at ht
  have hne' : member ≠ [42] := by rintro rfl; simp [hasStar] at hm
  have hstar : hasStar [42] = true := rfl
  have inv : ∀ rules : List ((List Nat × List Nat) × Bool), ∀ m, m = rules.foldl (fun m r => m.set r.1.1 r.1.2 r.2) (PairIncExc.new builtins) →
      m.pairs.lookup (table, member) = latest (· == (table, member)) rules ∧
      m.tables.lookup table = latest (· == (table, [42])) rules ∧
      m.members.lookup member = (latest (· == ([42], member)) rules).or (if member ∈ builtins then some true else none) ∧
      m.dflt = latest (· == ([42], [42])) rules ∧
      m.regexs = rules.filter fun r => isPairPattern r.1 := by
    intro rules
    induction rules using revInd with
    | nil => rintro m rfl; simp [PairIncExc.new, latest, lookup_const]
    | snoc rules r ih =>
      rintro m rfl
      obtain ⟨h1, h2, h3, h4, h5⟩ := ih _ rfl
      obtain ⟨⟨a, b⟩, v⟩ := r
      simp only [List.foldl_append, List.foldl_cons, List.foldl_nil, latest_append, List.filter_append]
      generalize rules.foldl (fun m r => m.set r.1.1 r.1.2 r.2) (PairIncExc.new builtins) = m at h1 h2 h3 h4 h5
      unfold PairIncExc.set
      have pe : ∀ x y : List Nat, ((a, b) == (x, y)) = (a == x && b == y) := fun _ _ => rfl
      simp only [pe]
      have ht' : ([42] == table) = false := by simpa using fun h => hne h.symm
      have hm' : ([42] == member) = false := by simpa using fun h => hne' h.symm
      by_cases ha : a = [42]
      · subst ha
        by_cases hb : b = [42]
        · subst hb
          simp [ht', hm', hstar, h1, h2, h3, h5, isPairPattern]
        · have hb' : (b == [42]) = false := by simpa using hb
          cases hbs : hasStar b with
          | false =>
            by_cases hbm : b = member
            · subst hbm; simp [hb, hb', hbs, ht', hstar, h1, h2, h4, h5, isPairPattern]
            · have h6 : (member == b) = false := by simpa using fun h => hbm h.symm
              have h7 : (b == member) = false := by simpa using hbm
              simp [hb, hb', hbs, ht', hstar, List.lookup, h6, h7, h1, h2, h3, h4, h5, isPairPattern]
          | true =>
            have h7 : (b == member) = false := by
              rw [beq_eq_false_iff_ne]; rintro rfl; rw [hm] at hbs; cases hbs
            simp [hb, hb', hbs, ht', hstar, h7, h1, h2, h3, h4, h5, isPairPattern]
      · have ha' : (a == [42]) = false := by simpa using ha
        by_cases hb : b = [42]
        · subst hb
          cases has : hasStar a with
          | false =>
            by_cases hat : a = table
            · subst hat; simp [ha, ha', has, hm', hstar, h1, h3, h4, h5, isPairPattern]
            · have h6 : (table == a) = false := by simpa using fun h => hat h.symm
              have h7 : (a == table) = false := by simpa using hat
              simp [ha, ha', has, hm', hstar, List.lookup, h6, h7, h1, h2, h3, h4, h5, isPairPattern]
          | true =>
            have h7 : (a == table) = false := by
              rw [beq_eq_false_iff_ne]; rintro rfl; rw [ht] at has; cases has
            simp [ha, ha', has, hm', hstar, h7, h1, h2, h3, h4, h5, isPairPattern]
        · have hb' : (b == [42]) = false := by simpa using hb
          cases has : hasStar a with
          | true =>
            have h7 : (a == table) = false := by
              rw [beq_eq_false_iff_ne]; rintro rfl; rw [ht] at has; cases has
            simp [ha, ha', hb, hb', has, h7, h1, h2, h3, h4, h5, isPairPattern]
          | false =>
            cases hbs : hasStar b with
            | true =>
              have h7 : (b == member) = false := by
                rw [beq_eq_false_iff_ne]; rintro rfl; rw [hm] at hbs; cases hbs
              simp [ha, ha', hb, hb', has, hbs, h7, h1, h2, h3, h4, h5, isPairPattern]
            | false =>
              by_cases hab : a = table ∧ b = member
              · obtain ⟨rfl, rfl⟩ := hab
                simp [ha, ha', hb, hb', has, hbs, h2, h3, h4, h5, isPairPattern]
              · have h6 : ((table, member) == (a, b)) = false := by
                  rw [beq_eq_false_iff_ne]; rintro h; cases h; exact hab ⟨rfl, rfl⟩
                have h7 : (a == table && b == member) = false := by
                  rw [Bool.eq_false_iff]; intro h; simp at h; exact hab h
                simp [ha, ha', hb, hb', has, hbs, List.lookup, h6, h7, h1, h2, h3, h4, h5, isPairPattern]
  obtain ⟨h1, h2, h3, h4, h5⟩ := inv rules _ rfl
  unfold PairIncExc.contains
  rw [decideKey_iff, h1, h2, h3, h4, h5, List.filter_filter]
  have : (fun a : (List Nat × List Nat) × Bool => (mat a.1.1 table && mat a.1.2 member) && isPairPattern a.1) =
      (fun r => isPairPattern r.1 && (mat r.1.1 table && mat r.1.2 member)) := by
    funext a; rw [Bool.and_comm]
  rw [this]

/-- What a written rule says: a leading `!` makes it negative; with a dot it is about members, otherwise about names. -/
def ruleOf (text : List Nat) : List Nat × Bool := if text.head? = some 33 then (text.tail, false) else (text, true)

def nameRules (texts : List (List Nat)) : List (List Nat × Bool) := (texts.map ruleOf).filter fun r => !r.1.contains 46

def memberRules (texts : List (List Nat)) : List ((List Nat × List Nat) × Bool) :=
  ((texts.map ruleOf).filter fun r => r.1.contains 46).map fun r => ((r.1.takeWhile (· != 46), (r.1.dropWhile (· != 46)).tail), r.2)

theorem splitDot_eq (s : List Nat) :
    splitDot s = if s.contains 46 then some (s.takeWhile (· != 46), (s.dropWhile (· != 46)).tail) else none := by
  induction s with
  | nil => rfl
  | cons c cs ih =>
    simp only [splitDot]
    by_cases h : c = 46
    · subst h; simp
    · rw [if_neg h, ih]
      have h1 : (c != 46) = true := by simpa using h
      have h2 : ((c :: cs).contains 46) = cs.contains 46 := by
        have : (46 == c) = false := by simpa using fun e => h e.symm
        rw [List.contains_cons, this, Bool.false_or]
      rw [h2, List.takeWhile_cons, List.dropWhile_cons, h1]
      cases cs.contains 46 <;> simp

/-- The rules as written on the command line: names and members are decided exactly by the rules about them. -/
theorem C29_texts (texts : List (List Nat)) (s : IncExc × PairIncExc) :
    texts.foldl addRule s =
      ((nameRules texts).foldl (fun m r => m.set r.1 r.2) s.1, (memberRules texts).foldl (fun m r => m.set r.1.1 r.1.2 r.2) s.2) := by
  induction texts generalizing s with
  | nil => rfl
  | cons t ts ih =>
    rw [List.foldl_cons, ih]
    have key : addRule s t = match splitDot (ruleOf t).1 with
        | some (a, b) => (s.1, s.2.set a b (ruleOf t).2) | none => (s.1.set (ruleOf t).1 (ruleOf t).2, s.2) := by
      unfold addRule ruleOf
      by_cases h : t.head? = some 33
      · simp [h]; rfl
      · have h' : (t.head? == some 33) = false := by simpa using h
        simp [h, h']; rfl
    rw [key, splitDot_eq]
    cases hd : (ruleOf t).1.contains 46 with
    | true => simp only [nameRules, memberRules, List.map_cons, List.filter_cons, hd]; rfl
    | false => simp only [nameRules, memberRules, List.map_cons, List.filter_cons, hd]; rfl

/-- A matcher for patterns with `*` only, for the examples. -/
def starMatch : List Nat → List Nat → Bool
  | [], s => s.isEmpty
  | 42 :: p, s => (List.range (s.length + 1)).any fun i => starMatch p (s.drop i)
  | c :: p, s => match s with | d :: s => c == d && starMatch p s | [] => false

/-- Rules `ab*`, `!*c`, `xyz`, `!xyz`, `t.*`, `!t.q`, with built-in `p`. -/
def demoRules : List (List Nat) := [[97, 98, 42], [33, 42, 99], [120, 121, 122], [33, 120, 121, 122], [116, 46, 42], [33, 116, 46, 113]]

/-- `abd` and `p` are preserved; `abc` (negative pattern) and `xyz` (later rule) are not; `t.r` is, `t.q` is not. -/
example :
    let s := demoRules.foldl addRule (IncExc.new [[112]], PairIncExc.new [])
    s.1.contains starMatch [97, 98, 100] = true ∧ s.1.contains starMatch [112] = true ∧ s.1.contains starMatch [97, 98, 99] = false ∧
    s.1.contains starMatch [120, 121, 122] = false ∧ s.2.contains starMatch [116] [114] = true ∧ s.2.contains starMatch [116] [113] = false := by
  decide +kernel

/-- The hypotheses of `C29_negative_wins` for `!*c` and `abc`. -/
example : hasStar [97, 98, 99] = false ∧ ([42, 99], false) ∈ nameRules demoRules ∧ hasStar [42, 99] = true ∧ ([42, 99] : List Nat) ≠ [42] ∧
    starMatch [42, 99] [97, 98, 99] = true := by decide +kernel

/-- Among rules for the very same name, order does matter: the later one counts. -/
theorem C29_order_example : ∃ (r1 r2 : List (List Nat × Bool)) (key : List Nat), r1.Perm r2 ∧
    (r1.foldl (fun m r => m.set r.1 r.2) (IncExc.new [])).contains starMatch key = true ∧
    (r2.foldl (fun m r => m.set r.1 r.2) (IncExc.new [])).contains starMatch key = false :=
  ⟨[([97], false), ([97], true)], [([97], true), ([97], false)], [97], List.Perm.swap _ _ _, by decide +kernel, by decide +kernel⟩

/-- Patterns may come in any order. -/
theorem C29_pattern_order (builtins : List (List Nat)) (rules rules' : List (List Nat × Bool)) (mat : List Nat → List Nat → Bool)
    (key : List Nat) (hk : hasStar key = false) (hp : (rules.filter fun r => hasStar r.1).Perm (rules'.filter fun r => hasStar r.1))
    (hplain : (rules.filter fun r => !hasStar r.1 || r.1 == [42]) = rules'.filter fun r => !hasStar r.1 || r.1 == [42]) :
    (rules.foldl (fun m r => m.set r.1 r.2) (IncExc.new builtins)).contains mat key =
      (rules'.foldl (fun m r => m.set r.1 r.2) (IncExc.new builtins)).contains mat key := by
  rw [Bool.eq_iff_iff, C29_names _ _ _ _ hk, C29_names _ _ _ _ hk]
  have hl : ∀ k : List Nat, (hasStar k = false ∨ k = [42]) → latest (· == k) rules = latest (· == k) rules' := by
    intro k hk'
    have sub : ∀ rs : List (List Nat × Bool), latest (· == k) rs = latest (· == k) (rs.filter fun r => !hasStar r.1 || r.1 == [42]) := by
      intro rs
      unfold latest
      rw [List.filter_filter]
      congr 2
      apply List.filter_congr
      intro r _
      by_cases h : r.1 = k
      · rcases hk' with hk' | hk'
        · simp [h, hk']
        · simp [h, hk']
      · have : (r.1 == k) = false := by simpa using h
        simp [this]
    rw [sub rules, sub rules', hplain]
  have hpp : ∀ b, b ∈ (rules.filter fun r => hasStar r.1 && r.1 != [42] && mat r.1 key).map (·.2) ↔
      b ∈ (rules'.filter fun r => hasStar r.1 && r.1 != [42] && mat r.1 key).map (·.2) := by
    intro b
    have : ∀ r : List Nat × Bool, r ∈ rules ∧ hasStar r.1 = true ↔ r ∈ rules' ∧ hasStar r.1 = true := by
      intro r
      have := hp.mem_iff (a := r)
      simpa [List.mem_filter] using this
    simp only [List.mem_map, List.mem_filter, Bool.and_eq_true]
    constructor
    · rintro ⟨r, ⟨h1, ⟨h2, h3⟩, h4⟩, h5⟩
      exact ⟨r, ⟨((this r).1 ⟨h1, h2⟩).1, ⟨h2, h3⟩, h4⟩, h5⟩
    · rintro ⟨r, ⟨h1, ⟨h2, h3⟩, h4⟩, h5⟩
      exact ⟨r, ⟨((this r).2 ⟨h1, h2⟩).1, ⟨h2, h3⟩, h4⟩, h5⟩
  unfold verdict
  rw [hl key (Or.inl hk), hl [42] (Or.inr rfl), hpp false, hpp true]

end Verif
