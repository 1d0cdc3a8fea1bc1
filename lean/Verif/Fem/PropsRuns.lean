import Verif.Fem.Runs
import Mathlib.Data.Nat.Digits.Lemmas
import Mathlib.Tactic
/-! # The runs of the finite element program and its files: C131, C132 -/
namespace OP.Fem.Runs

/-! ## The runs -/

/-- Run `r` is complete: its last results with variations are followed at once by its only results without, and after that only
later runs write. -/
def Complete (out : List (Bool × Int)) (r : Int) : Prop :=
  ∃ A B, out = A ++ [(true, r), (false, r)] ++ B ∧ (∀ e ∈ A, e.2 ≤ r ∧ e ≠ (false, r)) ∧ ∀ e ∈ B, r < e.2

theorem Complete.snoc {out : List (Bool × Int)} {r : Int} (h : Complete out r) {e : Bool × Int} (he : r < e.2) :
    Complete (out ++ [e]) r := by
  obtain ⟨A, B, h1, h2, h3⟩ := h
  refine ⟨A, B ++ [e], by rw [h1, List.append_assoc], h2, ?_⟩
  intro x hx
  rcases List.mem_append.1 hx with hx | hx
  · exact h3 x hx
  · rw [List.mem_singleton.1 hx]; exact he

/-- All runs up to `m` are complete, and only the next one may have been begun. -/
def Upto (S m : Int) (out : List (Bool × Int)) : Prop :=
  (∀ r, S < r → r ≤ m → Complete out r) ∧ ∀ e ∈ out, S < e.2 ∧ (e.2 ≤ m ∨ e = (true, m + 1))

/-- What holds between the rounds. -/
def RInv (S N : Int) (s : RSt) : Prop :=
  (s.isvar = false ∧ S ≤ s.run ∧ (s.run ≤ S + N ∨ s.run = S) ∧ Upto S s.run s.out) ∨
  (s.isvar = true ∧ S < s.run ∧ s.run ≤ S + N ∧ Upto S (s.run - 1) s.out ∧ ∃ A, s.out = A ++ [(true, s.run)])

theorem RInv.start (S N : Int) : RInv S N (start S) :=
  Or.inl ⟨rfl, le_refl _, Or.inr rfl, fun r h1 h2 => absurd h1 (not_lt.2 h2), fun e he => by simp [Runs.start] at he⟩

theorem RInv.round {S N : Int} {s : RSt} (h : RInv S N s) (ok : Bool → Bool) : RInv S N (round S N ok s) := by
  unfold Runs.round
  by_cases hs : stops S N s = true
  · rw [if_pos hs]; exact h
  rw [if_neg hs]
  obtain ⟨v, m, out⟩ := s
  rcases h with ⟨hv, h1, h2, h3, h4⟩ | ⟨hv, h1, h2, ⟨h3, h4⟩, A, hA⟩
  · dsimp only at hv h1 h2 h3 h4
    subst hv
    have hle : m + 1 ≤ S + N := by
      simp only [stops, Bool.not_false, if_true, decide_eq_true_eq, not_lt] at hs
      exact hs
    simp only [Bool.not_false, if_true]
    by_cases ho : ok true = true
    · rw [if_pos ho]
      refine Or.inr ⟨rfl, by dsimp only; omega, hle, ⟨fun r hr1 hr2 => ?_, fun e he => ?_⟩, out, rfl⟩
      · exact (h3 r hr1 (by dsimp only at hr2; omega)).snoc (by dsimp only at hr2 ⊢; omega)
      · rcases List.mem_append.1 he with he | he
        · refine ⟨(h4 e he).1, ?_⟩
          rcases (h4 e he).2 with g | g
          · left; dsimp only; omega
          · right; rw [g]; simp
        · rw [List.mem_singleton.1 he]
          exact ⟨by dsimp only; omega, Or.inr (by simp)⟩
    · rw [if_neg ho]
      refine Or.inl ⟨rfl, by dsimp only; omega, by dsimp only; omega, ?_⟩
      dsimp only
      rw [Int.add_sub_cancel]
      exact ⟨h3, h4⟩
  · dsimp only at hv h1 h2 h3 h4 hA
    subst hv
    simp only [Bool.not_true, Bool.false_eq_true, if_false]
    by_cases ho : ok false = true
    · rw [if_pos ho]
      refine Or.inl ⟨rfl, by dsimp only; omega, Or.inl h2, fun r hr1 hr2 => ?_, fun e he => ?_⟩
      · dsimp only at hr2
        by_cases hr : r = m
        · subst hr
          refine ⟨A, [], by rw [hA]; simp, fun e he => ?_, by simp⟩
          have hm := h4 e (by rw [hA]; exact List.mem_append_left _ he)
          rcases hm.2 with g | g
          · exact ⟨by omega, fun e' => by rw [e'] at g; dsimp only at g; omega⟩
          · rw [g]; exact ⟨by dsimp only; omega, by simp⟩
        · exact (h3 r hr1 (by omega)).snoc (by dsimp only; omega)
      · rcases List.mem_append.1 he with he | he
        · refine ⟨(h4 e he).1, Or.inl ?_⟩
          rcases (h4 e he).2 with g | g
          · dsimp only; omega
          · rw [g]; dsimp only; omega
        · rw [List.mem_singleton.1 he]
          exact ⟨h1, Or.inl (le_refl _)⟩
    · rw [if_neg ho]
      exact Or.inl ⟨rfl, by dsimp only; omega, Or.inl (by dsimp only; omega), h3, h4⟩

theorem rounds_inv (S N : Int) (h : List (Bool → Bool)) : RInv S N (rounds S N h) := by
  unfold rounds
  have : ∀ (h : List (Bool → Bool)) (s : RSt), RInv S N s → RInv S N (h.foldl (fun s ok => round S N ok s) s) := by
    intro h
    induction h with
    | nil => intro s hs; exact hs
    | cons ok h ih => intro s hs; exact ih _ (hs.round ok)
  exact this h _ (RInv.start S N)

theorem round_le {S N : Int} {s : RSt} (h : ∀ e ∈ s.out, e.2 ≤ S + N) (ok : Bool → Bool) :
    ∀ e ∈ (round S N ok s).out, e.2 ≤ S + N := by
  unfold Runs.round
  by_cases hs : stops S N s = true
  · rw [if_pos hs]; exact h
  rw [if_neg hs]
  simp only [stops, decide_eq_true_eq, not_lt] at hs
  dsimp only
  split
  · intro e he
    rcases List.mem_append.1 he with he | he
    · exact h e he
    · rw [List.mem_singleton.1 he]; exact hs
  · exact h

theorem rounds_le (S N : Int) (h : List (Bool → Bool)) : ∀ e ∈ (rounds S N h).out, e.2 ≤ S + N := by
  unfold rounds
  have : ∀ (h : List (Bool → Bool)) (s : RSt), (∀ e ∈ s.out, e.2 ≤ S + N) →
      ∀ e ∈ (h.foldl (fun s ok => round S N ok s) s).out, e.2 ≤ S + N := by
    intro h
    induction h with
    | nil => intro s hs; exact hs
    | cons ok h ih => intro s hs; exact ih _ (round_le hs ok)
  exact this h _ (by simp [start])

/-- **C131**: whichever solutions fail, only runs after the first number and up to the last are written; whenever the program is
stopped, all runs but the last begun are complete; and when it ends by itself, all of them are. -/
theorem C131_runs (S N : Int) (h : List (Bool → Bool)) :
    (∀ e ∈ (rounds S N h).out, S < e.2 ∧ e.2 ≤ S + N) ∧
    (∀ r, S < r → r < (rounds S N h).run → Complete (rounds S N h).out r) ∧
    (stops S N (rounds S N h) = true → ∀ r, S < r → r ≤ S + N → Complete (rounds S N h).out r) := by
  have hi := rounds_inv S N h
  have hl := rounds_le S N h
  generalize rounds S N h = s at hi hl
  obtain ⟨v, m, out⟩ := s
  rcases hi with ⟨hv, h1, h2, h3, h4⟩ | ⟨hv, h1, h2, ⟨h3, h4⟩, A, hA⟩
  · dsimp only at hv h1 h2 h3 h4
    subst hv
    refine ⟨fun e he => ⟨(h4 e he).1, hl e he⟩, fun r hr1 hr2 => h3 r hr1 (le_of_lt hr2), fun hs r hr1 hr2 => h3 r hr1 ?_⟩
    simp only [stops, Bool.not_false, if_true, decide_eq_true_eq] at hs
    omega
  · dsimp only at hv h1 h2 h3 h4 hA
    subst hv
    refine ⟨fun e he => ⟨(h4 e he).1, hl e he⟩, fun r hr1 hr2 => h3 r hr1 (by dsimp only at hr2; omega), fun hs => ?_⟩
    simp only [stops, Bool.not_true, Bool.false_eq_true, if_false, decide_eq_true_eq] at hs
    omega

/-- **C131**: the results without variations of a run are written once. -/
theorem C131_once (S N : Int) (h : List (Bool → Bool)) (r : Int) : (rounds S N h).out.count (false, r) ≤ 1 := by
  by_cases hc : Complete (rounds S N h).out r
  · obtain ⟨A, B, h1, h2, h3⟩ := hc
    have hA : A.count (false, r) = 0 := List.count_eq_zero.2 fun hm => (h2 _ hm).2 rfl
    have hB : B.count (false, r) = 0 := List.count_eq_zero.2 fun hm => lt_irrefl r (h3 _ hm)
    rw [h1, List.count_append, List.count_append, hA, hB]
    simp
  · have : (false, r) ∉ (rounds S N h).out := by
      intro hm
      apply hc
      rcases rounds_inv S N h with ⟨-, -, -, h3, h4⟩ | ⟨-, -, -, ⟨h3, h4⟩, -⟩
      · refine h3 r (h4 _ hm).1 ?_
        rcases (h4 _ hm).2 with g | g
        · exact g
        · simp at g
      · refine h3 r (h4 _ hm).1 ?_
        rcases (h4 _ hm).2 with g | g
        · exact g
        · simp at g
    rw [List.count_eq_zero.2 this]
    exact Nat.zero_le 1

theorem stops_stays {S N : Int} {s : RSt} (h : stops S N s = true) : ∀ hs : List (Bool → Bool),
    hs.foldl (fun s ok => round S N ok s) s = s
  | [] => rfl
  | ok :: hs => by
    rw [List.foldl_cons, show round S N ok s = s by rw [round, if_pos h]]
    exact stops_stays h hs

/-- **C131**: whatever failed before, the program ends if the solutions that are left to do do not fail. -/
theorem C131_ends (S : Int) (n : Nat) (h : List (Bool → Bool)) :
    stops S n (rounds S n (h ++ List.replicate (2 * n) fun _ => true)) = true := by
  have key : ∀ (k : Nat) (s : RSt), S + n - s.run ≤ k → s.isvar = false →
      stops S n ((List.replicate (2 * k) fun _ : Bool => true).foldl (fun s ok => round S n ok s) s) = true := by
    intro k
    induction k with
    | zero =>
      intro s hk hv
      simp only [Nat.mul_zero, List.replicate_zero, List.foldl_nil, stops, hv, Bool.not_false, if_true, decide_eq_true_eq]
      push_cast at hk
      omega
    | succ k ih =>
      intro s hk hv
      by_cases hs : stops S n s = true
      · rw [stops_stays hs]; exact hs
      have e : 2 * (k + 1) = 2 * k + 1 + 1 := by ring
      rw [e, List.replicate_succ, List.replicate_succ, List.foldl_cons, List.foldl_cons]
      have h1 : round S n (fun _ => true) s = ⟨true, s.run + 1, s.out ++ [(true, s.run + 1)]⟩ := by
        rw [round, if_neg hs]; simp [hv]
      have hn : ¬stops S n ⟨true, s.run + 1, s.out ++ [(true, s.run + 1)]⟩ = true := by
        simp only [stops, hv, Bool.not_false, if_true, decide_eq_true_eq] at hs
        simpa [stops] using hs
      have h2 : round S n (fun _ => true) ⟨true, s.run + 1, s.out ++ [(true, s.run + 1)]⟩ =
          ⟨false, s.run + 1, s.out ++ [(true, s.run + 1)] ++ [(false, s.run + 1)]⟩ := by
        rw [round, if_neg hn]; simp
      rw [h1, h2]
      exact ih _ (by push_cast at hk ⊢; omega) rfl
  have hi := rounds_inv S n h
  unfold rounds at *
  rw [List.foldl_append]
  generalize List.foldl (fun s ok => round S n ok s) (start S) h = s at hi
  rcases hi with ⟨hv, h1, -⟩ | ⟨hv, h1, h2, -⟩
  · exact key n s (by omega) hv
  · obtain ⟨v, m, out⟩ := s
    dsimp only at hv h1 h2
    subst hv
    obtain ⟨k, rfl⟩ : ∃ k, n = k + 1 := ⟨n - 1, by omega⟩
    have e : 2 * (k + 1) = 1 + 2 * k + 1 := by ring
    have hn : ¬stops S (k + 1 : Nat) ⟨true, m, out⟩ = true := by
      simp only [stops, Bool.not_true, Bool.false_eq_true, if_false, decide_eq_true_eq, not_lt]
      exact h2
    have h3 : round S (k + 1 : Nat) (fun _ => true) ⟨true, m, out⟩ = ⟨false, m, out ++ [(false, m)]⟩ := by
      rw [round, if_neg hn]; simp
    rw [e, List.replicate_succ, List.foldl_cons, h3, Nat.add_comm 1, List.replicate_succ', List.foldl_append]
    have hk := key k ⟨false, m, out ++ [(false, m)]⟩ (by dsimp only; push_cast; omega) rfl
    rw [show (List.foldl (fun s ok => round S (k + 1 : Nat) ok s)
      (List.foldl (fun s ok => round S (k + 1 : Nat) ok s) ⟨false, m, out ++ [(false, m)]⟩ (List.replicate (2 * k) fun _ : Bool => true))
      [fun _ => true]) = _ from stops_stays hk _]
    exact hk

/-- **C131** The pavement without variations is the same in every run.  If it cannot be solved, the program goes on for ever, and writes
the results with variations of the first run again and again. -/
theorem C131_endless_wrong (S N : Int) (hN : 1 ≤ N) (h : List (Bool → Bool)) (hf : ∀ ok ∈ h, ok false = false) :
    stops S N (rounds S N h) = false ∧ ∀ e ∈ (rounds S N h).out, e = (true, S + 1) := by
  have key : ∀ (h : List (Bool → Bool)) (s : RSt), (∀ ok ∈ h, ok false = false) →
      (s.isvar = false ∧ s.run = S ∨ s.isvar = true ∧ s.run = S + 1) → (∀ e ∈ s.out, e = (true, S + 1)) →
      let s' := h.foldl (fun s ok => round S N ok s) s
      (s'.isvar = false ∧ s'.run = S ∨ s'.isvar = true ∧ s'.run = S + 1) ∧ ∀ e ∈ s'.out, e = (true, S + 1) := by
    intro h
    induction h with
    | nil => intro s _ h1 h2; exact ⟨h1, h2⟩
    | cons ok h ih =>
      intro s hf h1 h2
      have hok := hf ok (by simp)
      refine ih _ (fun o ho => hf o (by simp [ho])) ?_ ?_
      · beta_reduce
        rcases h1 with ⟨hv, hr⟩ | ⟨hv, hr⟩
        · rw [round, if_neg (by simp only [stops, hv, hr]; simp; omega)]
          by_cases ho : ok true = true
          · right; simp [hv, ho, hr]
          · left; simp [hv, ho, hr]
        · rw [round, if_neg (by simp only [stops, hv, hr]; simp; omega)]
          left; simp [hv, hok, hr]
      · beta_reduce
        rcases h1 with ⟨hv, hr⟩ | ⟨hv, hr⟩
        · rw [round, if_neg (by simp only [stops, hv, hr]; simp; omega)]
          by_cases ho : ok true = true
          · simp only [hv, ho, hr, Bool.not_false, if_true]
            intro e he
            rcases List.mem_append.1 he with he | he
            · exact h2 e he
            · rw [List.mem_singleton.1 he]
          · simpa [hv, ho, hr] using h2
        · rw [round, if_neg (by simp only [stops, hv, hr]; simp; omega)]
          simpa [hv, hok, hr] using h2
  obtain ⟨h1, h2⟩ := key h (start S) hf (Or.inl ⟨rfl, rfl⟩) (by simp [start])
  refine ⟨?_, h2⟩
  rcases h1 with ⟨hv, hr⟩ | ⟨hv, hr⟩
  · simp only [rounds, stops, hv, hr]; simp; omega
  · simp only [rounds, stops, hv, hr]; simp; omega

/-- Two runs after number 7, with a failure of each kind: the first run is begun twice more. -/
example : (rounds 7 2 [fun _ => true, fun v => v, fun v => !v, fun _ => true, fun _ => true, fun _ => true, fun _ => true]).out =
    [(true, 8), (true, 8), (false, 8), (true, 9), (false, 9)] := by decide +kernel

/-! ## The names -/

theorem pad5_value (r : Int) (hr : 0 ≤ r) : Nat.ofDigits 10 ((pad5 r).map (· - 48)).reverse = r.natAbs ∧ 45 ∉ pad5 r := by
  unfold pad5
  rw [if_neg (not_lt.2 hr)]
  constructor
  · rw [List.map_append, List.reverse_append, List.map_replicate, List.map_reverse, List.reverse_reverse, List.map_map,
      List.reverse_replicate, Nat.ofDigits_append]
    have e : ((fun x => x - 48) ∘ fun x : Nat => 48 + x) = id := by funext x; simp
    rw [e, List.map_id, Nat.ofDigits_digits]
    simp [Nat.ofDigits_replicate_zero]
  · intro h
    rcases List.mem_append.1 h with h | h
    · simp at h
    · simp at h
      omega

theorem pad5_neg (r : Int) (hr : r < 0) : ∃ l, pad5 r = 45 :: l ∧ Nat.ofDigits 10 (l.map (· - 48)).reverse = r.natAbs := by
  refine ⟨_, by unfold pad5; rw [if_pos hr], ?_⟩
  rw [List.map_append, List.reverse_append, List.map_replicate, List.map_reverse, List.reverse_reverse, List.map_map,
    List.reverse_replicate, Nat.ofDigits_append]
  have e : ((fun x => x - 48) ∘ fun x : Nat => 48 + x) = id := by funext x; simp
  rw [e, List.map_id, Nat.ofDigits_digits]
  simp [Nat.ofDigits_replicate_zero]

theorem pad5_inj {r s : Int} (h : pad5 r = pad5 s) : r = s := by
  by_cases hr : r < 0 <;> by_cases hs : s < 0
  · obtain ⟨l, h1, h2⟩ := pad5_neg r hr
    obtain ⟨k, h3, h4⟩ := pad5_neg s hs
    rw [h1, h3] at h
    injection h with _ h
    rw [h, h4] at h2
    omega
  · obtain ⟨l, h1, -⟩ := pad5_neg r hr
    exact absurd (by rw [← h, h1]; simp) (pad5_value s (not_lt.1 hs)).2
  · obtain ⟨l, h1, -⟩ := pad5_neg s hs
    exact absurd (by rw [h, h1]; simp) (pad5_value r (not_lt.1 hr)).2
  · have h1 := (pad5_value r (not_lt.1 hr)).1
    rw [h, (pad5_value s (not_lt.1 hs)).1] at h1
    omega

theorem cut_inj : ∀ {a b s t : List Nat}, 95 ∉ a → 95 ∉ b → a ++ 95 :: s = b ++ 95 :: t → a = b ∧ s = t
  | [], [], _, _, _, _, h => by simpa using h
  | [], y :: b, _, _, _, hb, h => by
    simp only [List.nil_append, List.cons_append, List.cons.injEq] at h
    exact absurd (by rw [h.1]; simp) hb
  | x :: a, [], _, _, ha, _, h => by
    simp only [List.nil_append, List.cons_append, List.cons.injEq] at h
    exact absurd (by rw [h.1]; simp) ha
  | x :: a, y :: b, s, t, ha, hb, h => by
    simp only [List.cons_append, List.cons.injEq] at h
    obtain ⟨h1, h2⟩ := cut_inj (fun m => ha (by simp [m])) (fun m => hb (by simp [m])) h.2
    exact ⟨by rw [h.1, h1], h2⟩

/-- **C131**: results of different sets of elements, kinds or runs have files of different names. -/
theorem C131_names {d e : List Nat} (hd : 95 ∉ d) (he : 95 ∉ e) {v w : Bool} {r s : Int} (h : fileName d v r = fileName e w s) :
    d = e ∧ v = w ∧ r = s := by
  obtain ⟨h1, h2⟩ := cut_inj hd he h
  have hv : ∀ v : Bool, 95 ∉ (if v then [51, 100] else [49, 100] : List Nat) := by decide
  obtain ⟨h3, h4⟩ := cut_inj (hv v) (hv w) h2
  refine ⟨h1, ?_, pad5_inj (List.append_cancel_right h4)⟩
  revert h3
  cases v <;> cases w <;> simp

/-- `face_3d_00012.bin` -/
example : fileName [102, 97, 99, 101] true 12 = [102, 97, 99, 101, 95, 51, 100, 95, 48, 48, 48, 49, 50, 46, 98, 105, 110] := by
  simp [fileName, pad5]

/-! ## The contents -/

theorem layerOf_at : ∀ {as : List Nat} {i m : Nat}, as.Nodup → as[i]? = some m → layerOf as m = .ok i
  | [], i, m, _, h => by simp at h
  | a :: as, 0, m, _, h => by
    simp only [List.getElem?_cons_zero, Option.some.injEq] at h
    rw [layerOf, if_pos h]
  | a :: as, i + 1, m, hn, h => by
    rw [List.getElem?_cons_succ] at h
    rw [List.nodup_cons] at hn
    rw [layerOf, if_neg (fun e => hn.1 (by rw [e]; exact List.mem_of_getElem? h)), layerOf_at hn.2 h]
    rfl

theorem flat_get {β α : Type} (m : Nat) (f : β → List α) (hf : ∀ b, (f b).length = m) : ∀ (l : List β) (i k : Nat) (b : β),
    l[i]? = some b → k < m → (l.flatMap f)[m * i + k]? = (f b)[k]?
  | [], i, k, b, h, _ => by simp at h
  | c :: l, 0, k, b, h, hk => by
    simp only [List.getElem?_cons_zero, Option.some.injEq] at h
    subst h
    rw [List.flatMap_cons, List.getElem?_append_left (by rw [hf]; omega)]
    simp
  | c :: l, i + 1, k, b, h, hk => by
    rw [List.getElem?_cons_succ] at h
    rw [List.flatMap_cons, List.getElem?_append_right (by rw [hf]; nlinarith), hf]
    rw [← flat_get m f hf l i k b h hk]
    congr 1
    rw [Nat.mul_add, Nat.mul_one]
    omega

theorem flat_len {β α : Type} (m : Nat) (f : β → List α) (hf : ∀ b, (f b).length = m) : ∀ l : List β, (l.flatMap f).length = m * l.length
  | [] => rfl
  | b :: l => by rw [List.flatMap_cons, List.length_append, hf, flat_len m f hf l, List.length_cons]; ring

theorem point_length {α : Type} (i : α) (p : Pt α) : (point i p).length = 32 := by simp [point]

/-- **C131**: the file of a set of elements has 32 numbers for each point of each element, in order: the place, the number of the layer,
the modulus and the 27 results. -/
theorem C131_contents {α : Type} (num : Nat → α) (layers : List Nat) (hn : layers.Nodup) {n : Nat} (es : List (Nat × (Fin n → Pt α)))
    (hm : ∀ e ∈ es, e.1 ∈ layers) : ∃ r, results num layers es = .ok r ∧ r.length = 32 * (n * es.length) ∧
    ∀ i (e : Nat × (Fin n → Pt α)) (j : Fin n) (l : Nat), es[i]? = some e → layers[l]? = some e.1 →
      let at' (k : Nat) := r[32 * (n * i + j.val) + k]?
      at' 0 = some (e.2 j).x ∧ at' 1 = some (e.2 j).y ∧ at' 2 = some (e.2 j).z ∧ at' 3 = some (num l) ∧
      at' 4 = some (e.2 j).emod ∧ ∀ k : Fin 27, at' (5 + k.val) = some ((e.2 j).data k) := by
  classical
  have key : ∀ es : List (Nat × (Fin n → Pt α)), (∀ e ∈ es, e.1 ∈ layers) →
      results num layers es = .ok (es.flatMap fun e => (List.ofFn e.2).flatMap (point (num (layers.idxOf e.1)))) := by
    intro es
    induction es with
    | nil => intro _; rfl
    | cons e es ih =>
      intro h
      have hl : layerOf layers e.1 = .ok (layers.idxOf e.1) := by
        refine layerOf_at hn ?_
        have := List.idxOf_lt_length_of_mem (h e (by simp))
        rw [List.getElem?_eq_getElem this, List.getElem_idxOf]
      rw [results, hl, ih (fun x hx => h x (by simp [hx]))]
      rfl
  have hlen : ∀ e : Nat × (Fin n → Pt α), ((List.ofFn e.2).flatMap (point (num (layers.idxOf e.1)))).length = 32 * n := by
    intro e
    rw [flat_len 32 _ (fun p => point_length _ p), List.length_ofFn]
  refine ⟨_, key es hm, ?_, ?_⟩
  · rw [flat_len (32 * n) _ hlen, Nat.mul_assoc]
  · intro i e j l hi hl
    have hidx : layers.idxOf e.1 = l := by
      obtain ⟨h1, h2⟩ := List.getElem?_eq_some_iff.1 hl
      rw [← h2]
      exact hn.idxOf_getElem l h1
    have hk : ∀ k, k < 32 → (es.flatMap fun e => (List.ofFn e.2).flatMap (point (num (layers.idxOf e.1))))[32 * (n * i + j.val) + k]? =
        (point (num l) (e.2 j))[k]? := by
      intro k hk
      have e1 : 32 * (n * i + j.val) + k = (32 * n) * i + (32 * j.val + k) := by ring
      have hj := j.isLt
      rw [e1, flat_get (32 * n) _ hlen es i (32 * j.val + k) e hi (by omega),
        flat_get 32 _ (fun p => point_length _ p) _ j.val k (e.2 j) (by simp) hk, hidx]
    dsimp only
    refine ⟨?_, ?_, ?_, ?_, ?_, fun k => ?_⟩
    · rw [hk 0 (by omega)]; rfl
    · rw [hk 1 (by omega)]; rfl
    · rw [hk 2 (by omega)]; rfl
    · rw [hk 3 (by omega)]; rfl
    · rw [hk 4 (by omega)]; rfl
    · rw [hk (5 + k.val) (by omega), point, List.getElem?_append_right (by simp)]
      simp only [List.length_cons, List.length_nil, Nat.zero_add, Nat.reduceAdd, Nat.add_sub_cancel_left, List.getElem?_ofFn, k.isLt,
        dite_true]

/-- Two elements in different layers, with one point each. -/
example : ∃ r, results id [5, 9] ([(9, fun _ => ⟨1, 2, 3, 4, fun _ => 7⟩), (5, fun _ => ⟨6, 2, 3, 4, fun _ => 8⟩)] :
    List (Nat × (Fin 1 → Pt Nat))) = .ok r ∧ r[3]? = some 1 ∧ r[35]? = some 0 ∧ r[32]? = some 6 ∧ r.length = 64 :=
  ⟨_, rfl, by decide +kernel, by decide +kernel, by decide +kernel, by decide +kernel⟩

/-! ## The files with the correlations -/

section

variable {α : Type}

theorem apply_other (a : Act α) (fs : Files α) (l : Nat) (h1 : a ≠ .create l) (h2 : ∀ x, a ≠ .append l x) : a.apply fs l = fs l := by
  cases a with
  | create k =>
    simp only [Act.apply]
    rw [if_neg]
    rintro rfl
    exact h1 rfl
  | append k x =>
    simp only [Act.apply]
    rw [if_neg]
    rintro rfl
    exact h2 x rfl

theorem foldl_other (l : Nat) : ∀ (as : List (Act α)) (fs : Files α), (∀ a ∈ as, a ≠ .create l ∧ ∀ x, a ≠ .append l x) →
    as.foldl Act.apply fs l = fs l
  | [], _, _ => rfl
  | a :: as, fs, h => by
    rw [List.foldl_cons, foldl_other l as _ (fun b hb => h b (by simp [hb])), apply_other a fs l (h a (by simp)).1 (h a (by simp)).2]

theorem foldl_append_acts (l : Nat) : ∀ (c : List α) (fs : Files α) (d : List α), fs l = some d →
    (c.map (Act.append l)).foldl Act.apply fs l = some (d ++ c)
  | [], fs, d, h => by simpa using h
  | x :: c, fs, d, h => by
    rw [List.map_cons, List.foldl_cons, foldl_append_acts l c _ (d ++ [x]) (by simp [Act.apply, h])]
    simp

/-- The actions of the layers from `i` on touch only layers from `i` on whose file is not there. -/
theorem acts_touch (fac : Nat → Option (List α)) (fs : Files α) : ∀ (k i l : Nat), l < i ∨ i + k ≤ l ∨ fs l ≠ none →
    ∀ a ∈ (acts fac fs i k).1, a ≠ .create l ∧ ∀ x, a ≠ .append l x := by
  intro k
  induction k with
  | zero => intro i l _ a ha; simp [acts] at ha
  | succ k ih =>
    intro i l h a ha
    rw [acts] at ha
    cases hf : fs i with
    | some c =>
      rw [hf] at ha
      by_cases hi : l = i
      · subst hi
        exact ih (l + 1) l (Or.inl (by omega)) a ha
      · exact ih (i + 1) l (h.imp (by omega) (Or.imp (by omega) id)) a ha
    | none =>
      have hli : l ≠ i := by
        rintro rfl
        rcases h with h | h | h
        · omega
        · omega
        · exact h hf
      rw [hf] at ha
      cases hc : fac i with
      | none =>
        rw [hc] at ha
        simp only [List.mem_singleton] at ha
        subst ha
        exact ⟨fun e => hli (by injection e with e; exact e.symm), fun x e => by cases e⟩
      | some c =>
        rw [hc] at ha
        simp only [List.cons_append, List.mem_cons, List.mem_append, List.mem_map] at ha
        rcases ha with rfl | ⟨x, -, rfl⟩ | ha
        · exact ⟨fun e => hli (by injection e with e; exact e.symm), fun x e => by cases e⟩
        · exact ⟨fun e => (by cases e), fun y e => hli (by injection e with e; exact e.symm)⟩
        · exact ih (i + 1) l (h.imp (by omega) (Or.imp (by omega) id)) a ha

/-- **C132** Whatever is in a file stays in it, for every later start of the program, wherever it is stopped and whatever the correlations
are then. -/
theorem C132_stays (fac : Nat → Option (List α)) (m t : Nat) (fs : Files α) (l : Nat) (h : fs l ≠ none) : boot fac m t fs l = fs l :=
  foldl_other l _ _ fun a ha => acts_touch fac fs m 0 l (Or.inr (Or.inr h)) a (List.mem_of_mem_take ha)

/-- The actions before those of layer `l`, if no earlier layer fails. -/
theorem acts_split (fac : Nat → Option (List α)) (fs : Files α) : ∀ (k i l : Nat), i ≤ l → l < i + k →
    (∀ j, i ≤ j → j < l → fs j = none → fac j ≠ none) → ∃ A, (acts fac fs i k).1 = A ++ (acts fac fs l (i + k - l)).1 ∧
      (acts fac fs i k).2 = (acts fac fs l (i + k - l)).2 ∧ ∀ a ∈ A, a ≠ .create l ∧ ∀ x, a ≠ .append l x := by
  intro k
  induction k with
  | zero => intro i l h1 h2; omega
  | succ k ih =>
    intro i l h1 h2 h3
    by_cases hi : i = l
    · subst hi
      exact ⟨[], by rw [show i + (k + 1) - i = k + 1 by omega]; rfl, by rw [show i + (k + 1) - i = k + 1 by omega], by simp⟩
    · obtain ⟨A, e1, e2, e3⟩ := ih (i + 1) l (by omega) (by omega) (fun j hj1 hj2 => h3 j (by omega) hj2)
      rw [show i + 1 + k - l = i + (k + 1) - l by omega] at e1 e2
      rw [acts]
      cases hf : fs i with
      | some c => exact ⟨A, e1, e2, e3⟩
      | none =>
        cases hc : fac i with
        | none => exact absurd hc (h3 i (le_refl _) (by omega) hf)
        | some c =>
          refine ⟨.create i :: c.map (.append i) ++ A, ?_, e2, fun a ha => ?_⟩
          · simp only [e1, List.append_assoc, List.cons_append]
          · simp only [List.cons_append, List.mem_cons, List.mem_append, List.mem_map] at ha
            rcases ha with rfl | ⟨x, -, rfl⟩ | ha
            · exact ⟨fun e => hi (by injection e with e), fun x e => by cases e⟩
            · exact ⟨fun e => (by cases e), fun y e => hi (by injection e with e)⟩
            · exact e3 a ha

theorem acts_all (fac : Nat → Option (List α)) (fs : Files α) : ∀ (k i : Nat), (∀ j, i ≤ j → j < i + k → fs j = none → fac j ≠ none) →
    (acts fac fs i k).2 = true
  | 0, _, _ => rfl
  | k + 1, i, h => by
    rw [acts]
    cases hf : fs i with
    | some c => exact acts_all fac fs k (i + 1) (fun j h1 h2 => h j (by omega) (by omega))
    | none =>
      cases hc : fac i with
      | none => exact absurd hc (h i (le_refl _) (by omega) hf)
      | some c => exact acts_all fac fs k (i + 1) (fun j h1 h2 => h j (by omega) (by omega))

/-- **C132** (partial): a start that is not stopped, with files that are complete or not there, finishes, and each layer then reads its own
factor.  Missing, because the code does not do it: the same after a start that was stopped or failed, or for another mesh. -/
theorem C132_factors_partial (c : Nat → List α) (m : Nat) (fs : Files α) (hg : ∀ l < m, fs l = none ∨ fs l = some (c l)) :
    let all := (acts (fun l => some (c l)) fs 0 m)
    all.2 = true ∧ ∀ t, all.1.length ≤ t → ∀ l < m, readFac (boot (fun l => some (c l)) m t fs) l (c l).length = .ok (c l) := by
  refine ⟨acts_all _ _ _ _ fun _ _ _ _ => by simp, fun t ht l hl => ?_⟩
  have : boot (fun l => some (c l)) m t fs l = some (c l) := by
    rcases hg l hl with hf | hf
    · obtain ⟨A, e1, -, e3⟩ := acts_split (fun l => some (c l)) fs m 0 l (Nat.zero_le _) (by omega) (fun _ _ _ _ => by simp)
      rw [boot, List.take_of_length_le ht, e1, List.foldl_append]
      obtain ⟨k, hk⟩ : ∃ k, 0 + m - l = k + 1 := ⟨m - l - 1, by omega⟩
      rw [hk, acts, hf]
      simp only [List.cons_append, List.foldl_cons, List.foldl_append]
      rw [foldl_other l _ _ (acts_touch _ fs k (l + 1) l (Or.inl (by omega)))]
      rw [foldl_append_acts l (c l) _ [] (by simp [Act.apply])]
      rfl
    · rw [C132_stays _ _ _ _ _ (by rw [hf]; simp), hf]
  rw [readFac, this]
  simp

/-- **C132** Stopped after the file of a layer is made and before its last number is written, the program leaves a file that every later
start takes for the factor, and reads numbers that were never set. -/
theorem C132_stopped_wrong (c : Nat → List α) (m : Nat) (fs : Files α) (l : Nat) (hl : l < m) (hf : fs l = none) (k : Nat)
    (hk : k < (c l).length) : ∃ t, boot (fun l => some (c l)) m t fs l = some ((c l).take k) ∧
      ∀ later : List ((Nat → Option (List α)) × Nat × Nat),
        readFac (later.foldl (fun fs s => boot s.1 s.2.1 s.2.2 fs) (boot (fun l => some (c l)) m t fs)) l (c l).length = .ub := by
  obtain ⟨A, e1, -, e3⟩ := acts_split (fun l => some (c l)) fs m 0 l (Nat.zero_le _) (by omega) (fun _ _ _ _ => by simp)
  obtain ⟨q, hq⟩ : ∃ q, 0 + m - l = q + 1 := ⟨m - l - 1, by omega⟩
  have hb : boot (fun l => some (c l)) m (A.length + (k + 1)) fs l = some ((c l).take k) := by
    rw [boot, e1, List.take_length_add_append, List.foldl_append, hq, acts, hf]
    simp only [List.cons_append, List.take_succ_cons, List.foldl_cons]
    rw [List.take_append_of_le_length (by simp; omega), ← List.map_take, foldl_append_acts l _ _ [] (by simp [Act.apply])]
    rfl
  refine ⟨_, hb, fun later => ?_⟩
  generalize boot (fun l => some (c l)) m (A.length + (k + 1)) fs = gs at hb
  have key : ∀ (later : List ((Nat → Option (List α)) × Nat × Nat)) (gs : Files α), gs l = some ((c l).take k) →
      later.foldl (fun fs s => boot s.1 s.2.1 s.2.2 fs) gs l = some ((c l).take k) := by
    intro later
    induction later with
    | nil => intro gs h; exact h
    | cons s later ih =>
      intro gs h
      rw [List.foldl_cons]
      exact ih _ (by rw [C132_stays _ _ _ _ _ (by rw [h]; simp), h])
  rw [readFac, key later gs hb]
  simp only
  rw [if_neg]
  simp only [List.length_take]
  omega

/-- **C132** A correlation matrix that is not positive definite stops the first start only.  Every later start finds the empty file, does not
notice, and reads numbers that were never set. -/
theorem C132_indefinite_wrong (fac : Nat → Option (List α)) (m : Nat) (fs : Files α) (l n : Nat) (hl : l < m) (hf : fs l = none)
    (hc : fac l = none) (hn : 0 < n) (hb : ∀ j, j < m → j ≠ l → fac j ≠ none) : ∃ gs, (∀ t, (acts fac fs 0 m).1.length ≤ t → boot fac m t fs = gs) ∧
      (acts fac fs 0 m).2 = false ∧ (acts fac gs 0 m).2 = true ∧ ∀ t, readFac (boot fac m t gs) l n = .ub := by
  obtain ⟨A, e1, e2, e3⟩ := acts_split fac fs m 0 l (Nat.zero_le _) (by omega) (fun j _ hj _ => hb j (by omega) (by omega))
  obtain ⟨q, hq⟩ : ∃ q, 0 + m - l = q + 1 := ⟨m - l - 1, by omega⟩
  rw [hq, acts, hf] at e1 e2
  simp only [hc] at e1 e2
  have hgs : (acts fac fs 0 m).1.foldl Act.apply fs l = some [] := by
    rw [e1, List.foldl_append]
    simp [Act.apply]
  refine ⟨(acts fac fs 0 m).1.foldl Act.apply fs, fun t ht => by rw [boot, List.take_of_length_le ht], e2, ?_, fun t => ?_⟩
  · refine acts_all _ _ _ _ fun j _ hj hn => ?_
    refine hb j (by omega) ?_
    rintro rfl
    rw [hgs] at hn
    cases hn
  · rw [readFac, C132_stays _ _ _ _ _ (by rw [hgs]; simp), hgs]
    simp only [List.length_nil]
    rw [if_neg (by omega)]

/-- **C132** The files are not tied to a mesh: started for another mesh that needs no more numbers, the program uses the old ones, whatever the
correlations are. -/
theorem C132_mesh_wrong (c : List α) (fac : Nat → Option (List α)) (m t : Nat) (fs : Files α) (l n : Nat) (hf : fs l = some c) (hn : n ≤ c.length) :
    readFac (boot fac m t fs) l n = .ok (c.take n) := by
  rw [readFac, C132_stays _ _ _ _ _ (by rw [hf]; simp), hf]
  simp only
  rw [if_pos hn]

/-- Three layers, the second of which has its file already. -/
example : let c : Nat → List Nat := fun l => [l, l + 1, l + 2]
    let fs : Files Nat := fun l => if l = 1 then some [1, 2, 3] else none
    (∀ l < 3, fs l = none ∨ fs l = some (c l)) ∧ (boot (fun l => some (c l)) 3 8 fs) 2 = some [2, 3, 4] ∧
      (boot (fun l => some (c l)) 3 6 fs) 2 = some [2] := by
  decide +kernel

end

end OP.Fem.Runs
