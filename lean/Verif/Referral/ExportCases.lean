import Verif.Referral.ExportProps
import Verif.Referral.Retire5

/-! Property C77: exporting again, executions, examples, and what is lost. -/
namespace Verif.Referral

/-! ### Exporting again -/

theorem entries_eq (st : KV Nat Info) : st.entries = (st.entries.map (·.1)).map fun k => (k, infoOf st k) := by
  rw [List.map_map]
  conv => lhs; rw [← List.map_id st.entries]
  refine List.map_congr_left ?_
  rintro ⟨k, v⟩ h
  show (k, v) = (k, infoOf st k)
  rw [infoOf_get (KV.mem_entries.1 h)]

theorem filter_entries (st : KV Nat Info) (q : Key × Info → Bool) :
    st.entries.filter q = ((st.entries.map (·.1)).filter fun k => q (k, infoOf st k)).map fun k => (k, infoOf st k) := by
  conv => lhs; rw [entries_eq st, List.filter_map]
  rfl

theorem keys_eq {st st' : KV Nat Info} (h : ∀ k, st'.has k = st.has k) : st'.entries.map (·.1) = st.entries.map (·.1) := by
  have hm : ∀ (m : KV Nat Info) k, k ∈ m.entries.map (·.1) ↔ m.has k = true := by
    intro m k
    rw [List.mem_map]
    constructor
    · rintro ⟨⟨a, v⟩, h, rfl⟩
      unfold KV.has; rw [KV.mem_entries.1 h]; rfl
    · intro h
      unfold KV.has at h
      obtain ⟨v, hv⟩ := Option.isSome_iff_exists.1 h
      exact ⟨(k, v), KV.mem_entries.2 hv, rfl⟩
  have hs : ∀ m : KV Nat Info, (m.entries.map (·.1)).Pairwise (· < ·) := fun m => List.pairwise_map.2 m.sorted
  refine List.Perm.eq_of_pairwise (le := (· < ·)) (fun a b _ _ h1 h2 => absurd h1 (Nat.lt_asymm h2)) (hs st') (hs st) ?_
  rw [List.perm_ext_iff_of_nodup (keys_nodup _ st'.sorted) (keys_nodup _ st.sorted)]
  intro k
  rw [hm, hm, h]

theorem ancestor_same {st st' : KV Nat Info} (h : ∀ k, (infoOf st' k).referrer = (infoOf st k).referrer) (c : Key) :
    ∀ n, ancestor st' c n = ancestor st c n := by
  intro n
  induction n with
  | zero => exact h c
  | succ n ih =>
    unfold ancestor
    rw [ih]
    congr 1
    funext a
    exact h a

/-- What the export depends on -/
theorem export_same {st st' : KV Nat Info} (hc : Consistent st) (h1 : ∀ k, st'.has k = st.has k) (h2 : ∀ k, Kept (infoOf st k) (infoOf st' k)) :
    exportGenesis st' = exportGenesis st := by
  have hc' : Consistent st' := by
    refine ⟨fun p => by rw [(h2 p).referrals]; exact hc.once p, fun c p e1 e2 => ?_, fun c p e1 => ?_, fun c n => ?_⟩
    · rw [(h2 c).referrer] at e1
      rw [(h2 c).banished] at e2
      rw [(h2 p).referrals]
      exact hc.listed c p e1 e2
    · rw [(h2 p).referrals] at e1
      rw [(h2 c).referrer, (h2 c).banished]
      exact hc.nowhere c p e1
    · rw [ancestor_same fun k => (h2 k).referrer]; exact hc.acyclic c n
  have hk := keys_eq h1
  have hlen : st'.entries.length = st.entries.length := by
    rw [← List.length_map (f := (·.1)) (as := st'.entries), hk, List.length_map]
  have htop : topLevelOf st' = topLevelOf st := by
    unfold topLevelOf
    rw [filter_entries st', filter_entries st, hk, List.map_map, List.map_map]
    simp only [(h2 _).banished, (h2 _).referrer]
    rfl
  have hban : banishedOf st' = banishedOf st := by
    unfold banishedOf
    rw [filter_entries st', filter_entries st, hk, List.map_map, List.map_map]
    simp only [(h2 _).banished]
    refine List.map_congr_left fun k _ => ?_
    show (k, (infoOf st' k).referrer) = (k, (infoOf st k).referrer)
    rw [(h2 k).referrer]
  have hlev : ∀ n, level st' n = level st n := by
    intro n
    induction n with
    | zero => exact htop
    | succ n ih =>
      show (level st' n).flatMap _ = (level st n).flatMap _
      rw [ih]
      congr 1
      funext k
      exact (h2 k).referrals
  have hup : ∀ n, upTo st' n = upTo st n := by
    intro n
    induction n with
    | zero => rfl
    | succ n ih => show upTo st' n ++ level st' n = upTo st n ++ level st n; rw [ih, hlev]
  rw [export_eq hc', export_eq hc, hlen, hup]
  congr 1
  have hl : ∀ k ∈ upTo st (st.entries.length + 1), (infoOf st k).banished = false := by
    intro k hk
    obtain ⟨i, -, h⟩ := mem_upTo.1 hk
    exact (level_live hc i k h).2
  unfold fileOf
  rw [htop, hban]
  congr 1
  · refine List.filterMap_congr fun k _ => ?_
    unfold entryOf
    rw [(h2 k).referrals]
  · refine List.filterMap_congr fun k hk => ?_
    rw [(h2 k).compressionAt (hl k hk)]
  · refine List.filterMap_congr fun k hk => ?_
    rw [(h2 k).banishmentAt (hl k hk)]
  · refine List.filterMap_congr fun k hk => ?_
    rw [(h2 k).downgradeAt (hl k hk)]
    cases hd : (infoOf st k).downgradeAt with
    | none => rfl
    | some d => rw [(h2 k).status (hl k hk) (by rw [hd]; simp)]
  · refine List.filterMap_congr fun k hk => ?_
    rw [(h2 k).transition (hl k hk)]

/-- C77: whatever file the export wrote, a chain that starts from it exports the same file again. -/
theorem C77_again_partial (e : Env) (he : ∀ x k, e.call x k = true) (s s0 t : State) (g : GenesisFile) (hs : Good s)
    (hb : ∀ k, (infoOf s.store k).banished = true → (infoOf s.store k).referrals = []) (h0 : Unborn s0)
    (h1 : exportGenesis s.store = some g) (h2 : importGenesis e g s0 = (.ok (), t)) : exportGenesis t.store = some g := by
  obtain ⟨g', t', e1, e2, h3, -⟩ := C77_round_trip_partial e he s s0 hs hb h0
  rw [h1] at e1
  injection e1 with e1
  subst e1
  rw [h2] at e2
  injection e2 with _ e2
  subst e2
  rw [export_same hs.consistent (fun k => (h3 k).1) fun k => (h3 k).2, h1]

/-- C77 for executions: the genesis file is in order and tasks run on time. -/
theorem C77_executions_partial (l0 l : List (Env × Op)) (s : State) (h0 : s.start) (h1 : Along structureOk l0 s)
    (hf : ∀ k, Settled (infoOf (run l0 s).store k)) (h : Along orderlyOk l (run l0 s)) (e : Env) (he : ∀ x k, e.call x k = true)
    (s0 : State) (hu : Unborn s0) :
    ∃ g t, exportGenesis (run l (run l0 s)).store = some g ∧ importGenesis e g s0 = (.ok (), t) ∧
      (∀ k, t.store.has k = (run l (run l0 s)).store.has k ∧ Kept (infoOf (run l (run l0 s)).store k) (infoOf t.store k)) ∧
      Sync t.index (fun k => (infoOf t.store k).status) := by
  have hg : Good (run l (run l0 s)) := by
    have hg := Along.run step_good l0 s (start_good h0) h1
    exact Along.run (ok := orderlyOk) (fun e op s hs h => step_good e op s hs h.structure) l _ hg h
  exact C77_round_trip_partial e he _ s0 hg
    (fun k hk => (C74_out_of_business_partial l0 l s h0 h1 hf h k (.inl hk)).2.2.2.1) hu

/-- The export always ends. -/
theorem C77_export_ends (s : State) (hs : Good s) : (exportGenesis s.store).isSome = true := by
  rw [export_eq hs.consistent]; rfl

/-! ### Examples -/

/-- Before genesis -/
def unborn : State := { store := KV.empty, day := 10 }

theorem unborn_unborn : Unborn unborn := ⟨rfl, rfl, fun _ => rfl⟩


/-- Account 1 asks to move shortly before it is banished. -/
def leaving : List (Env × Op) :=
  [(fine, .top (text 0)), (fine, .register (text 1) (text 0) true), (fine, .register (text 2) (text 0) true),
   (fine, .expire (text 1)), (fine, .world 700 0 0 99), (fine, .compression (text 1)), (fine, .world 999 0 0 99),
   (fine, .request (text 1) (some (text 2))), (fine, .world 1000 0 0 99), (fine, .banish (text 1))]

/-- Seven active accounts, two below each of the first three -/
def lucky : List (Env × Op) :=
  [(fine, .top (text 0)), (fine, .register (text 1) (text 0) true), (fine, .register (text 2) (text 0) true),
   (fine, .register (text 3) (text 1) true), (fine, .register (text 4) (text 1) true), (fine, .register (text 5) (text 2) true),
   (fine, .register (text 6) (text 2) true), (fine, .expire (text 6)), (fine, .balance 1 { delegated := 90000000000 }), (fine, .subscribe (text 6))]

/-- `C77_executions_partial` holds of an execution with an account that is to be banished and wants to move. -/
example : poor.start ∧ Along structureOk (leaving.take 1) poor ∧ (∀ k, Settled (infoOf (run (leaving.take 1) poor).store k)) ∧
    Along orderlyOk (leaving.drop 1) (run (leaving.take 1) poor) ∧
    exportGenesis (run (leaving.take 8) poor).store = some ⟨[text 0], [(text 0, [text 1, text 2])], [], [], [(text 1, 1000)], [], [(text 1, text 2)]⟩ := by
  refine ⟨rfl, ⟨trivial, trivial⟩, settled_of (by decide +kernel), ?_, by decide +kernel⟩
  have h1 : OnTime (run (leaving.take 7) poor) := onTime_of (by decide +kernel)
  have h2 : (infoOf (run (leaving.take 9) poor).store (text 1)).banishmentAt ≠ none := by decide +kernel
  exact ⟨(show text 1 ≠ text 0 by decide), (show text 2 ≠ text 0 by decide), trivial, trivial, trivial, trivial, h1, trivial, h2, trivial⟩

/-- A banished account -/
example : exportGenesis (run (sample.take 7) plain).store =
    some { topLevel := [text 0], other := [(text 0, [text 2])], banished := [(text 1, some (text 0))] } := by decide +kernel

/-- A status that is about to be lowered, and a date of compression -/
example : exportGenesis (run champion empty0).store =
    some { topLevel := [2], other := [(2, [4])], compressions := [(4, 200)], downgrades := [(2, 6, 50)] } ∧
    (importGenesis fine { topLevel := [2], other := [(2, [4])], compressions := [(4, 200)], downgrades := [(2, 6, 50)] } unborn).2.index = [(6, 2)] := by
  decide +kernel

/-- What the import makes of an exported state -/
def reborn (s : State) : Option State := (exportGenesis s.store).bind fun g =>
  match importGenesis fine g unborn with
  | (.ok (), t) => some t
  | _ => none

theorem reborn_some {s t : State} (h : reborn s = some t) : ∃ g, exportGenesis s.store = some g ∧ importGenesis fine g unborn = (.ok (), t) := by
  unfold reborn at h
  obtain ⟨g, hg, h⟩ := Option.bind_eq_some_iff.1 h
  refine ⟨g, hg, ?_⟩
  split at h
  · next heq => injection h with h; rw [heq, h]
  · exact absurd h (by simp)

theorem reborn_of {s : State} {q : State → Bool} (h : ((reborn s).map q).getD false = true) :
    ∃ g t, exportGenesis s.store = some g ∧ importGenesis fine g unborn = (.ok (), t) ∧ q t = true := by
  cases hr : reborn s with
  | none => rw [hr] at h; exact absurd h (by simp)
  | some t =>
    obtain ⟨g, h1, h2⟩ := reborn_some hr
    rw [hr] at h
    exact ⟨g, t, h1, h2, h⟩

/-! ### What is lost -/

/-- The export follows the structure downwards from the accounts without referrer, and does not pass banished accounts: an account below
a banished one is not in the file, and gone after the import. -/
theorem C77_stranded_violation : ∃ (l : List (Env × Op)) (s : State) (g : GenesisFile) (t : State), s.start ∧
    Along (fun op s => structureOk op s ∧ dueOk op s) l s ∧ (run l s).store.has (text 6) = true ∧
    (infoOf (run l s).store (text 6)).banished = false ∧
    exportGenesis (run l s).store = some g ∧ importGenesis fine g unborn = (.ok (), t) ∧ t.store.has (text 6) = false := by
  obtain ⟨g, t, h1, h2, h3⟩ := reborn_of (s := run (stranded.take 12) poor) (q := fun t => !t.store.has (text 6)) (by decide +kernel)
  refine ⟨stranded.take 12, poor, g, t, rfl, ?_, by decide +kernel, by decide +kernel, h1, h2, by simpa using h3⟩
  refine ⟨⟨trivial, trivial⟩, ⟨(show text 1 ≠ text 0 by decide), trivial⟩, ⟨(show text 2 ≠ text 1 by decide), trivial⟩,
    ⟨(show text 3 ≠ text 2 by decide), trivial⟩, ⟨(show text 4 ≠ text 3 by decide), trivial⟩,
    ⟨(show text 5 ≠ text 4 by decide), trivial⟩, ⟨(show text 6 ≠ text 5 by decide), trivial⟩,
    ⟨trivial, trivial⟩, ⟨trivial, trivial⟩, ⟨trivial, trivial⟩, ⟨trivial, trivial⟩, ⟨trivial, ?_⟩, trivial⟩
  refine ⟨300, ?_, ?_⟩
  · decide +kernel
  · decide +kernel

/-- A banished account's wish to move is not in the file. -/
theorem C77_transition_violation : ∃ (l0 l : List (Env × Op)) (s : State) (g : GenesisFile) (t : State), s.start ∧ Along structureOk l0 s ∧
    (∀ k, Settled (infoOf (run l0 s).store k)) ∧ Along orderlyOk l (run l0 s) ∧
    (infoOf (run l (run l0 s)).store (text 1)).transition = some (text 2) ∧
    exportGenesis (run l (run l0 s)).store = some g ∧ importGenesis fine g unborn = (.ok (), t) ∧
    (infoOf t.store (text 1)).transition = none := by
  obtain ⟨g, t, h1, h2, h3⟩ := reborn_of (s := run (leaving.drop 1) (run (leaving.take 1) poor))
    (q := fun t => (infoOf t.store (text 1)).transition.isNone) (by decide +kernel)
  refine ⟨leaving.take 1, leaving.drop 1, poor, g, t, rfl, ⟨trivial, trivial⟩, settled_of (by decide +kernel), ?_, by decide +kernel, h1, h2,
    by simpa using h3⟩
  have h1 : OnTime (run (leaving.take 7) poor) := onTime_of (by decide +kernel)
  have h2 : (infoOf (run (leaving.take 9) poor).store (text 1)).banishmentAt ≠ none := by decide +kernel
  exact ⟨(show text 1 ≠ text 0 by decide), (show text 2 ≠ text 0 by decide), trivial, trivial, trivial, trivial, h1, trivial, h2, trivial⟩

/-- A status that is not about to be lowered is not in the file: after the import of the referral module, the account starts again at 1.  The
import of the profiles comes later, activates accounts one by one and ends with a check of all statuses,
/repo/x/profile/keeper/genesis.go:59-71. -/
theorem C77_status_not_exported : ∃ (l0 l : List (Env × Op)) (s : State) (g : GenesisFile) (t : State), s.start ∧ Along structureOk l0 s ∧
    (∀ k, Settled (infoOf (run l0 s).store k)) ∧ Along orderlyOk l (run l0 s) ∧ (infoOf (run l (run l0 s)).store (text 0)).status = 2 ∧
    exportGenesis (run l (run l0 s)).store = some g ∧ importGenesis fine g unborn = (.ok (), t) ∧ (infoOf t.store (text 0)).status = 1 := by
  obtain ⟨g, t, h1, h2, h3⟩ := reborn_of (s := run (lucky.drop 1) (run (lucky.take 1) poor))
    (q := fun t => decide ((infoOf t.store (text 0)).status = 1)) (by decide +kernel)
  refine ⟨lucky.take 1, lucky.drop 1, poor, g, t, rfl, ⟨trivial, trivial⟩, settled_of (by decide +kernel), ?_, by decide +kernel, h1, h2,
    by simpa using h3⟩
  have h1 : OnTime (run (lucky.take 8) poor) := onTime_of (by decide +kernel)
  exact ⟨(show text 1 ≠ text 0 by decide), (show text 2 ≠ text 0 by decide), (show text 3 ≠ text 1 by decide), (show text 4 ≠ text 1 by decide),
    (show text 5 ≠ text 2 by decide), (show text 6 ≠ text 2 by decide), trivial, h1, trivial, trivial⟩

end Verif.Referral
