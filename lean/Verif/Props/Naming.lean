import Verif.Spec.Naming
import Verif.Spec.Demo
import Verif.Proofs.Naming
import Verif.Props.Apart
/-!
Property C120: keys are only names.
-/
set_option linter.unusedSectionVars false
set_option linter.unusedSimpArgs false
set_option linter.unusedVariables false
set_option synthInstance.maxSize 2000
set_option synthInstance.maxHeartbeats 200000
namespace Metis.Props.NamingP
open Metis Spec
open _root_.Metis.Props.KeysP (accepts_iff)
open _root_.Metis.Props.CalmP (logged)
open _root_.Metis.Props.ApartP (Alike call_quiet select_other auth_other astep_det task_keep)
open _root_.Metis.NamingSim (renS ren ren_det)
variable {hash : Bytes → Nat} {s s' t t' : Sys} {r : List Bytes} {ρ σ : Bytes → Bytes}

/-- The second server is the first one with other names for the keys: what is here under `k` is there under `ρ k`. -/
structure Twin (ρ : Bytes → Bytes) (s t : Sys) : Prop where
  pw : t.srv.password = s.srv.password
  len : t.srv.dbs.length = s.srv.dbs.length
  sess : ∀ fd, t.sess fd = s.sess fd
  data : ∀ i k, t.val i (ρ k) = s.val i k ∧ t.deadline i (ρ k) = s.deadline i k
  task : t.srv.task = s.srv.task

theorem twin_sess (h : Twin ρ s t) (fd : Nat) (o : Option Session) :
    Twin ρ ⟨s.srv, fun x => if x = fd then o else s.sess x⟩ ⟨t.srv, fun x => if x = fd then o else t.sess x⟩ :=
  ⟨h.pw, h.len, fun x => by simp only [h.sess x], h.data, h.task⟩

theorem renArgs_length (ρ : Bytes → Bytes) (c : Cmd) (args : List Bytes) : (renArgs ρ c args).length = args.length := by
  unfold renArgs; split <;> simp

theorem renArgs_head (ρ : Bytes → Bytes) (c : Cmd) (args : List Bytes) : (renArgs ρ c args)[0]? = args[0]? := by
  unfold renArgs; split <;> rfl

/-- One event. -/
theorem twin_step (i1 : ∀ k, σ (ρ k) = k) (i2 : ∀ k, ρ (σ k) = k) (g : SysGood hash s) (g' : SysGood hash t) (w : Twin ρ s t) {ev : Event}
    (he : EvOk hash ev) (hk : Named ev) (h : Sys.step s ev = some (s', r)) :
    ∃ t' r', Sys.step t (Event.renamed ρ ev) = some (t', r') ∧ Told ρ ev r r' ∧ Twin ρ s' t' ∧ SysGood hash t' := by
  suffices hgoal : ∃ t' r', Sys.step t (Event.renamed ρ ev) = some (t', r') ∧ Told ρ ev r r' ∧ Twin ρ s' t' by
    obtain ⟨t', r', k1, k2, k3⟩ := hgoal
    have he' : EvOk hash (Event.renamed ρ ev) := by cases ev <;> exact he
    exact ⟨t', r', k1, k2, k3, (step_db g' he' k1).1⟩
  cases ev with
  | cron e => cases hk
  | connect fd =>
    simp only [Sys.step] at h
    split at h
    · cases h
    · next hn =>
      cases h
      exact ⟨⟨t.srv, fun x => if x = fd then some Session.new else t.sess x⟩, [], by simp only [Event.renamed, Sys.step]; rw [w.len, if_neg hn], rfl, twin_sess w fd _⟩
  | close fd =>
    cases h
    exact ⟨⟨t.srv, fun x => if x = fd then none else t.sess x⟩, [], rfl, rfl, twin_sess w fd _⟩
  | request fd e args =>
    have h0 := h
    simp only [Sys.step, Option.bind_eq_bind, Option.bind_eq_some_iff] at h
    obtain ⟨c, hc, ⟨srv', c', r0⟩, h1, h2⟩ := h
    simp only [Option.some.injEq, Prod.mk.injEq] at h2
    obtain ⟨rfl, rfl⟩ := h2
    have hc' : t.sess fd = some c := by rw [w.sess fd, hc]
    simp only [Event.renamed]
    generalize hargs : renReq ρ e args = args'
    unfold renReq at hargs
    have hlen : args'.length = args.length := by rw [← hargs]; split <;> simp [renArgs_length]
    have hhead : args'[0]? = args[0]? := by rw [← hargs]; split <;> simp only [renArgs_head]
    have key : ∀ (srv1 : Server) c1 r1, Server.processCommand e args' t.srv c = some (srv1, c1, r1) →
        Sys.step t (.request fd e args') = some (⟨srv1, fun x => if x = fd then some c1 else t.sess x⟩, r1) := by
      intro srv1 c1 r1 hp
      simp only [Sys.step, hc', hp, Option.bind_eq_bind, Option.bind_some]
    have same : (commandOf e args = some .keys → isError r0) → Told ρ (.request fd e args) r0 r0 := by
      intro hx
      by_cases hkk : commandOf e args = some .keys
      · exact .inr ⟨hkk, .inl ⟨hx hkk, rfl⟩⟩
      · exact .inl ⟨hkk, .inl rfl⟩
    have quiet : (commandOf e args = some .keys → isError r0) → Server.processCommand e args' t.srv c = some (t.srv, c', r0) → srv' = s.srv →
        ∃ t' r', Sys.step t (.request fd e args') = some (t', r') ∧ Told ρ (.request fd e args) r0 r' ∧
          Twin ρ ⟨srv', fun x => if x = fd then some c' else s.sess x⟩ t' := by
      intro hx hp hs
      subst hs
      exact ⟨_, _, key _ _ _ hp, same hx, twin_sess w fd _⟩
    unfold Server.processCommand at h1
    cases ha : args[0]? with
    | none => rw [ha] at h1; cases h1
    | some a0 =>
    rw [ha] at h1
    rw [ha] at hhead
    simp only [Option.bind_eq_bind, Option.bind_some] at h1
    cases hl : lookupCommand (e.lower a0) with
    | none =>
      rw [hl] at h1
      cases h1
      exact quiet (fun _ => error_isError _) (by simp only [Server.processCommand, hhead, hl, Option.bind_eq_bind, Option.bind_some]) rfl
    | some entry =>
    rw [hl] at h1
    simp only at h1
    obtain ⟨hmem, hn⟩ := lookup_mem hl
    have hcmd := commandOf_of ha hl
    have hcmd' := commandOf_of hhead hl
    rw [hcmd] at hargs
    simp only at hargs
    by_cases hb : Server.badArity args.length entry.arity = true
    · rw [if_pos hb] at h1
      cases h1
      exact quiet (fun _ => error_isError _) (by simp only [Server.processCommand, hhead, hlen, hl, hb, Option.bind_eq_bind, Option.bind_some, if_true]) rfl
    rw [if_neg hb] at h1
    by_cases hp : s.srv.password ≠ [] ∧ c.auth = false ∧ e.lower a0 ≠ b!"auth"
    · rw [if_pos hp] at h1
      cases h1
      refine quiet (fun _ => error_isError _) ?_ rfl
      simp only [Server.processCommand, hhead, hlen, hl, hb, Option.bind_eq_bind, Option.bind_some, if_false, w.pw]
      rw [if_pos hp]; rfl
    rw [if_neg hp] at h1
    have hcall : Server.processCommand e args' t.srv c = Server.call e entry args' t.srv c := by
      simp only [Server.processCommand, hhead, hlen, hl, hb, Option.bind_eq_bind, Option.bind_some, if_false, w.pw]
      rw [if_neg hp]; rfl
    rcases proc_db_iff entry.proc with ⟨f, hf⟩ | hq | hq | hq
    · have hbad : Server.badArity args.length (arity entry.proc) = false := by
        rw [← table_arity _ hmem]; simpa using hb
      have hal : Allowed s.srv c := by
        by_cases q1 : s.srv.password = []
        · exact Or.inl q1
        · by_cases q2 : c.auth = true
          · exact Or.inr q2
          · refine (hp ⟨q1, by simpa using q2, ?_⟩).elim
            rw [← hn]
            intro hx
            rw [(table_auth entry hmem).1 hx] at hf
            cases hf
      obtain ⟨d, o, a, d1, d2, d3, d4, d5, d6, d7⟩ := step_request g he h0 hc hal hcmd hbad hf
      obtain ⟨d', hd'⟩ := get_lt (g'.sess fd c hc')
      have hview : d'.view = renS σ d.view := by
        have q : ∀ k, d'.view.v k = d.view.v (σ k) ∧ d'.view.t k = d.view.t (σ k) := by
          intro k
          have := w.data c.db (σ k)
          rw [val_eq d1, val_eq hd', deadline_eq d1, deadline_eq hd', i2] at this
          exact this
        show (⟨d'.view.v, d'.view.t⟩ : AS) = ⟨_, _⟩
        congr 1
        · funext k; exact (q k).1
        · funext k; exact (q k).2
      obtain ⟨f', hf'⟩ : ∃ f', aFn entry.proc = some f' := by
        cases hx : aFn entry.proc with
        | some f' => exact ⟨f', rfl⟩
        | none =>
          exfalso
          obtain ⟨_, k1, k2⟩ := hk
          rw [hcmd] at k1 k2
          generalize entry.proc = p at hf hx k1 k2
          cases p <;> first | (cases hx; done) | (cases hf; done) | exact k1 rfl | exact k2 rfl
      have hda := astep_det hf' d3
      obtain ⟨a', ha', has, had, hrep⟩ : ∃ a', f' e args' d'.view = some a' ∧ a'.s = renS σ a.s ∧ a'.dirty = a.dirty ∧ ∀ r2, a'.reply r2 → Told ρ (.request fd e args) r0 r2 := by
        by_cases hkk : entry.proc = .keys
        · have hstar := hk.1 (hkk ▸ hcmd)
          rw [hkk] at hbad hf' hargs
          have h2 : args.length = 2 := by
            rw [show arity .keys = 2 from rfl] at hbad
            simp only [Server.badArity, decide_eq_false_iff_not] at hbad
            omega
          have hsh : args = [a0, b!"*"] := by
            match args, h2 with
            | [x, y], _ =>
              simp only [List.getElem?_cons_zero, List.getElem?_cons_succ, Option.some.injEq] at ha hstar
              rw [ha, hstar]
          cases hf'
          have : args' = [a0, b!"*"] := by rw [← hargs, hsh]; rfl
          rw [hsh] at hda
          obtain ⟨a', k1, k2, k3, k4⟩ := NamingSim.ren_keys i1 i2 e a0 d.view hda
          exact ⟨a', by rw [hview, this]; exact k1, k2, k3, fun r2 hr2 => .inr ⟨hkk ▸ hcmd, .inr (k4 _ _ d5 hr2)⟩⟩
        · refine ⟨NamingSim.renO σ a, ?_, rfl, rfl, fun r2 q2 => .inl ⟨fun hx => hkk (Option.some.inj (hcmd.symm.trans hx)), ?_⟩⟩
          · rw [hview, ← hargs, ren_det i1 i2 hf' hkk, hda]; rfl
          · have q1 := d5
            cases hu : unordered entry.proc with
            | false => exact Or.inl (plain_det hf' hu a hda _ _ q1 q2)
            | true =>
              rcases loose_det hf' hu a hda _ _ q1 q2 with q | q
              · exact Or.inl q
              · exact Or.inr ⟨⟨_, hcmd, hu⟩, q⟩
      have hbad' : Server.badArity args'.length (arity entry.proc) = false := by rw [hlen]; exact hbad
      obtain ⟨s2, r2, o2, w1, w2, w3, w4, w5, w7, _, _, w6⟩ := step_det g' he hc' (by
          rcases hal with q | q
          · exact Or.inl (w.pw.trans q)
          · exact Or.inr q) hcmd' hbad' hf hf' hd' ha'
        (fun hne => logged hcmd' ((accepts_iff _ _).1 hbad') hf' ha' hne)
      refine ⟨s2, r2, w1, ?_, ?_⟩
      · exact hrep _ (by rw [w4]; exact w3.reply)
      · obtain ⟨_, m1, _, m2, _⟩ := step_db g he h0
        obtain ⟨_, m3, _, m4, _⟩ := step_db g' (show EvOk hash (.request fd e args') from he) w1
        refine ⟨m3.trans (w.pw.trans m1.symm), m4.trans (w.len.trans m2.symm), fun x => ?_, fun i k => ?_, ?_⟩
        · rw [w6 x, d7 x, w.sess x]
        · by_cases hi : c.db = i
          · subst hi
            have z1 : (s.srv.dbs.set c.db o.db)[c.db]? = some o.db := by rw [set_get d1, if_pos rfl]
            have z2 : (t.srv.dbs.set c.db o2.db)[c.db]? = some o2.db := by rw [set_get hd', if_pos rfl]
            rw [← d6] at z1
            rw [← w5] at z2
            rw [val_eq z1, val_eq z2, deadline_eq z1, deadline_eq z2, d4.view, w3.view, has]
            exact ⟨NamingSim.v_ren i1 i2 a.s k, NamingSim.t_ren i1 i2 a.s k⟩
          · have := w.data i k
            unfold Sys.val Sys.deadline at this ⊢
            rw [d6, w5, set_get d1, set_get hd', if_neg hi, if_neg hi]
            exact this
        · have hnb : entry.proc ≠ .bgrewriteaof := by
            intro hx; rw [hx] at hf; cases hf
          rw [task_keep g he (by rw [hcmd]; exact fun hx => hnb (Option.some.inj hx)) h0,
            task_keep g' (show EvOk hash (.request fd e args') from he) (by rw [hcmd']; exact fun hx => hnb (Option.some.inj hx)) w1, w.task]
    · unfold Server.call at h1
      have hsame : args' = args := by rw [← hargs, hq]; cases args <;> rfl
      rw [hsame] at hcall quiet ⊢
      rw [hq] at h1
      simp only [Server.proc] at h1
      cases hs : Server.select e args s.srv c with
      | none => rw [hs] at h1; cases h1
      | some p =>
        obtain ⟨srv1, c1, r1⟩ := p
        have := select_same hs
        subst this
        simp only [hs, Option.bind_eq_bind, Option.bind_some] at h1
        rw [if_neg (by rintro ⟨_, h⟩; omega)] at h1
        cases h1
        exact quiet (by rw [hcmd, hq]; intro hx; cases hx) (by rw [hcall]; exact call_quiet (by rw [hq]; exact select_other (hash' := e.hash) (lv := e.level) w.len hs) rfl) rfl
    · unfold Server.call at h1
      have hsame : args' = args := by rw [← hargs, hq]; cases args <;> rfl
      rw [hsame] at hcall quiet ⊢
      rw [hq] at h1
      simp only [Server.proc] at h1
      cases hs : Server.auth e args s.srv c with
      | none => rw [hs] at h1; cases h1
      | some p =>
        obtain ⟨srv1, c1, r1⟩ := p
        have := auth_same hs
        subst this
        simp only [hs, Option.bind_eq_bind, Option.bind_some] at h1
        rw [if_neg (by rintro ⟨_, h⟩; omega)] at h1
        cases h1
        exact quiet (by rw [hcmd, hq]; intro hx; cases hx) (by rw [hcall]; exact call_quiet (by rw [hq]; exact auth_other (e' := e) w.pw hs) rfl) rfl
    · have ht := w.task
      have hsame : args' = args := by rw [← hargs, hq]; cases args <;> rfl
      rw [hsame] at hcall quiet key ⊢
      unfold Server.call at h1
      rw [hq] at h1
      simp only [Server.proc] at h1
      by_cases hb' : s.srv.task ≠ .none
      · have hs : Server.bgRewriteAof e args s.srv c = some (s.srv, c, Reply.simple b!"Background append only file rewriting scheduled") := by
          unfold Server.bgRewriteAof; rw [if_pos hb']
        simp only [hs, Option.bind_eq_bind, Option.bind_some] at h1
        rw [if_neg (by rintro ⟨_, h⟩; omega)] at h1
        cases h1
        refine quiet (by rw [hcmd, hq]; intro hx; cases hx) ?_ rfl
        rw [hcall]
        refine call_quiet ?_ rfl
        rw [hq]
        simp only [Server.proc, Server.bgRewriteAof]
        rw [ht, if_pos hb']
      · obtain ⟨cs, k1, _⟩ := copyAll_ref e he s.srv.dbs g.srv
        obtain ⟨cs', k1', _⟩ := copyAll_ref e he t.srv.dbs g'.srv
        have hs : Server.bgRewriteAof e args s.srv c = some ({ s.srv with task := .aofRewrite, dbs := s.srv.dbs, snapshot := some cs }, c,
            Reply.simple b!"Background append only file rewriting started") := by
          unfold Server.bgRewriteAof Server.startRewrite; rw [if_neg hb', if_neg hb', k1]; rfl
        have hs' : Server.bgRewriteAof e args t.srv c =
            some ({ t.srv with task := .aofRewrite, dbs := t.srv.dbs, snapshot := some cs' }, c,
              Reply.simple b!"Background append only file rewriting started") := by
          unfold Server.bgRewriteAof Server.startRewrite; rw [ht, if_neg hb', if_neg hb', k1']; rfl
        simp only [hs, Option.bind_eq_bind, Option.bind_some] at h1
        rw [if_neg (by rintro ⟨_, h⟩; simp at h)] at h1
        cases h1
        rw [show Server.bgRewriteAof = Server.proc entry.proc by rw [hq]; rfl] at hs'
        have hc2 := call_quiet hs' rfl
        refine ⟨_, _, key _ _ _ (hcall.trans hc2), same (by rw [hcmd, hq]; intro hx; cases hx), ?_⟩
        have := twin_sess w fd (some c)
        exact ⟨this.pw, this.len, this.sess, this.data, rfl⟩

theorem twin_run (i1 : ∀ k, σ (ρ k) = k) (i2 : ∀ k, ρ (σ k) = k) : ∀ (evs : List Event) {s t s' : Sys} {rs}, SysGood hash s → SysGood hash t → Twin ρ s t →
    (∀ ev ∈ evs, EvOk hash ev ∧ Named ev) → Sys.run s evs = some (s', rs) →
    ∃ t' rs', Sys.run t (evs.map (Event.renamed ρ)) = some (t', rs') ∧ List.Forall₂ (fun p r' => Told ρ p.1 p.2 r') (evs.zip rs) rs' ∧ Twin ρ s' t'
  | [], s, t, s', rs, g, g', w, _, h => by cases h; exact ⟨t, [], rfl, .nil, w⟩
  | ev :: rest, s, t, s', rs, g, g', w, he, h => by
    obtain ⟨s1, r, rs1, h1, h2, h3⟩ := run_cons h
    simp only at h2 h3
    subst h3
    obtain ⟨q1, q2⟩ := he ev (by simp)
    obtain ⟨t1, r', p1, p2, p3, p4⟩ := twin_step i1 i2 g g' w q1 q2 h1
    obtain ⟨t', rs', k1, k2, k3⟩ := twin_run i1 i2 rest (step_db g q1 h1).1 p4 p3 (fun x hx => he x (by simp [hx])) h2
    refine ⟨t', r' :: rs', ?_, .cons p2 k2, k3⟩
    rw [List.map_cons]
    simp only [Sys.run, p1, k1, Option.bind_eq_bind, Option.bind_some]

/-- **C120**: if every key is given another name throughout, no two the same, then all clients are told the same as before (and the new names of the keys, if they ask for all), and what was under the old name is under the new one. -/
theorem C120_names {n : Nat} {pw : Bytes} {aof : Bool} {evs : List Event} {rs : List (List Bytes)} (hρ : Function.Bijective ρ)
    (he : ∀ ev ∈ evs, EvOk hash ev ∧ Named ev) (h : Sys.run (Sys.init n pw aof) evs = some (s, rs)) :
    ∃ t rs', Sys.run (Sys.init n pw aof) (evs.map (Event.renamed ρ)) = some (t, rs') ∧ List.Forall₂ (fun p r' => Told ρ p.1 p.2 r') (evs.zip rs) rs' ∧
      ∀ i k, t.val i (ρ k) = s.val i k ∧ t.deadline i (ρ k) = s.deadline i k := by
  obtain ⟨σ, i1, i2⟩ := Function.bijective_iff_has_inverse.1 hρ
  have w : Twin ρ (Sys.init n pw aof) (Sys.init n pw aof) := by
    refine ⟨rfl, rfl, fun _ => rfl, fun i k => ?_, rfl⟩
    have q : ∀ k, (Sys.init n pw aof).val i k = none ∧ (Sys.init n pw aof).deadline i k = none := by
      intro k
      cases hd : (Sys.init n pw aof).srv.dbs[i]? with
      | none => simp only [Sys.val, Sys.deadline, hd]; exact ⟨rfl, rfl⟩
      | some d =>
        have hd1 := hd
        simp only [Sys.init, Server.init, List.getElem?_replicate] at hd1
        split at hd1
        · cases hd1
          rw [val_eq hd, deadline_eq hd]
          exact ⟨rfl, rfl⟩
        · cases hd1
    exact ⟨(q _).1.trans (q _).1.symm, (q _).2.trans (q _).2.symm⟩
  obtain ⟨t, rs', h1, h2, h3⟩ := twin_run i1 i2 evs (init_good n pw aof) (init_good n pw aof) w he h
  exact ⟨t, rs', h1, h2, h3.data⟩

/-- Two clients on a string, a list that expires, and sets. -/
def day : List Event :=
  [.connect 4, .connect 5, .request 4 (demo 0) [b!"set", b!"ab", b!"v"], .request 5 (demo 1) [b!"rpush", b!"cd", b!"x", b!"y"],
    .request 5 (demo 2) [b!"expire", b!"cd", b!"1"], .request 4 (demo 3) [b!"sadd", b!"ef", b!"m"], .request 4 (demo 4) [b!"sunion", b!"ef", b!"gh"],
    .request 4 (demo 5) [b!"get", b!"ba"], .request 5 (demo 6) [b!"get", b!"ab"], .request 4 (demo 2000) [b!"llen", b!"cd"]]

/-- Reading names backwards is a renaming. -/
theorem backwards : Function.Bijective (List.reverse : Bytes → Bytes) := List.reverse_involutive.bijective

example : ∀ ev ∈ day, EvOk (demo 0).hash ev ∧ Named ev := by
  intro ev hev
  simp only [day, List.mem_cons, List.not_mem_nil, or_false] at hev
  rcases hev with rfl | rfl | rfl | rfl | rfl | rfl | rfl | rfl | rfl | rfl
  all_goals first
    | exact ⟨trivial, trivial⟩
    | exact ⟨rfl, by decide, by decide, by decide⟩

/-- The same replies, under other names. -/
example : (Sys.run (Sys.init 1 [] true) day).map Prod.snd =
      some [[], [], [b!"+OK\r\n"], [b!":2\r\n"], [b!"+OK\r\n"], [b!":1\r\n"], Reply.array [b!"m"], Reply.null, Reply.bulk b!"v", [b!":0\r\n"]] ∧
    (Sys.run (Sys.init 1 [] true) (day.map (Event.renamed List.reverse))).map Prod.snd = (Sys.run (Sys.init 1 [] true) day).map Prod.snd := by decide

/-- Asked for all keys, it tells the new names. -/
example : ((Sys.run (Sys.init 1 [] true) ((day ++ [Event.request 4 (demo 2001) [b!"keys", b!"*"]]).map (Event.renamed List.reverse))).map fun p => p.2.getLast?) =
      some (some (Reply.array [b!"fe", b!"ba"])) ∧
    ((Sys.run (Sys.init 1 [] true) (day ++ [Event.request 4 (demo 2001) [b!"keys", b!"*"]])).map fun p => p.2.getLast?) = some (some (Reply.array [b!"ef", b!"ab"])) := by decide

end Metis.Props.NamingP
