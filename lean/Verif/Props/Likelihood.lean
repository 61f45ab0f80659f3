import Verif.Proofs.LikelihoodNet
import Verif.Props.Factory

/-! # C104: the learned network makes the data most likely -/

namespace PyBBN
open Relation

/-- what `from_data` returns could have produced the data -/
theorem learned_candidate {st : Dict Str (List Str)} {df : Frame} (h : Factory.Valid st df) (hac : Acyclic df.Names)
    (hl : ∀ c ∈ df.columns, c ∉ Factory.pa st c) : ∃ ops, Factory.fromData st df = .ok (Bbn.run ops) ∧ df.Candidate st (Bbn.run ops) := by
  obtain ⟨id, hid, hb⟩ := (Factory.fromData_spec h).1 hac
  have hwf := Factory.named_wf h hid
  have hvars := Named.vars hwf (List.Perm.refl df.columns) (Factory.kids_perm h)
  have hnames : (Bbn.run ((Factory.named st df id).ops df.columns (Dict.keys st))).vars.map Variable.name = df.columns := by
    rw [hvars, List.map_map]; exact List.map_id _
  refine ⟨_, hb, ?_, ?_, ⟨h.keys, ?_, ?_⟩, Factory.named_normalized h hid, ?_⟩
  · refine Named.bbnWF hwf (List.Perm.refl df.columns) (Factory.kids_perm h) hl (fun c _ => Factory.vals_nodup df c) ?_
      (fun c _ => Factory.table_nonneg st df c)
    intro c hc
    have := Factory.rows_prod h id hc
    rw [product_length_eq, List.map_map] at this
    change _ ≤ (Factory.table st df c).length
    rw [Factory.table_length, List.map_append, List.prod_append]
    unfold rows at this
    refine le_of_eq ?_
    change List.prod (((firsts (Factory.pa st c)).map _).map _) * _ = _
    rw [this]
    simp
    rfl
  · rw [hnames]; exact h.cols
  · intro c; rw [hnames]; exact h.same c
  · intro v hv p
    rw [hvars] at hv
    obtain ⟨c, hc, rfl⟩ := List.mem_map.1 hv
    rw [Named.parentVars hwf (List.Perm.refl df.columns) (Factory.kids_perm h) hc, List.map_map]
    change p ∈ Factory.pa st c ↔ p ∈ (firsts (Factory.pa st c)).map (fun x => x)
    rw [List.map_id', mem_firsts]
  · intro v hv x hx
    rw [hvars] at hv
    obtain ⟨c, _, rfl⟩ := List.mem_map.1 hv
    exact (Factory.mem_vals df c x).2 hx

/-- **C104**, partial. Missing: structures that do not list all parents in ascending order (see `c104_false`). For the others, among all
networks with this structure, whatever their values, ids and tables, none gives the rows of the data frame a larger probability than the
network that `from_data` returns; and a network gives them the same probability only if every table entry that some row reads is the relative
frequency in the data. -/
theorem c104_maximum_likelihood_partial (st : Dict Str (List Str)) (df : Frame) (h : Factory.Valid st df) (hac : Acyclic df.Names)
    (hs : ∀ c ∈ df.columns, (Factory.pa st c).Pairwise (fun a b => strLe a b = true)) (hl : ∀ c ∈ df.columns, c ∉ Factory.pa st c) :
    ∃ b, Factory.fromData st df = .ok b ∧ df.Candidate st b ∧ ∀ ops, df.Candidate st (Bbn.run ops) →
      df.likelihood (Bbn.run ops) ≤ df.likelihood b ∧
      (df.likelihood (Bbn.run ops) = df.likelihood b ↔ ∀ n ∈ (Bbn.run ops).toGraph.getNodes, ∀ r ∈ df.rows,
        cptAt n.probs ((Bbn.run ops).parentVars n.var.id) n.var (df.asgOf (Bbn.run ops) r) =
          df.relFreq n.var.name (df.cell r n.var.name) (((Bbn.run ops).parentVars n.var.id).map (fun p => (p.name, df.cell r p.name)))) := by
  obtain ⟨ops₀, hb, C₀⟩ := learned_candidate h hac hl
  obtain ⟨b, hb', ht⟩ := c45_tables_partial st df h hac
  rw [hb, Except.ok.injEq] at hb'
  subst hb'
  have hi₀ := bbn_run_inv ops₀
  have hbest : df.likelihood (Bbn.run ops₀) = df.best st := by
    refine (likelihood_le h.same h.cols hi₀ C₀).2.2 ?_
    intro n hn r hr
    have hv : n.var ∈ (Bbn.run ops₀).vars := List.mem_map.2 ⟨n, hn, rfl⟩
    have hc : n.var.name ∈ df.columns := (candidate_names h.same h.cols C₀).mem_iff.1 (List.mem_map.2 ⟨_, hv, rfl⟩)
    unfold Bbn.w
    rw [ht n hn (hs _ hc) _ (asgOf_inDom hi₀ C₀ hr), learned_eq C₀ hv, asgOf_var hi₀ hv]
    congr 1
    refine List.map_congr_left ?_
    intro p hp
    rw [asgOf_var hi₀ (parentVars_sub hi₀ _ p hp)]
  refine ⟨_, hb, C₀, ?_⟩
  intro ops C
  have hi := bbn_run_inv ops
  obtain ⟨h1, h2⟩ := likelihood_le h.same h.cols hi C
  rw [hbest]
  refine ⟨h1, h2.trans ?_⟩
  constructor
  · intro hh n hn r hr
    rw [← learned_eq C (List.mem_map.2 ⟨n, hn, rfl⟩)]
    exact hh n hn r hr
  · intro hh n hn r hr
    rw [learned_eq C (List.mem_map.2 ⟨n, hn, rfl⟩)]
    exact hh n hn r hr

/-- the likelihood of the four rows under the network learned with a structure -/
def c104_likelihood (st : Dict Str (List Str)) : Option ℚ := (Factory.fromData st c45_frame).val?.map c45_frame.likelihood

/-- the hypotheses hold for the data and the structure of C45; the third column is a function of the others, and the likelihood is that of the
first two columns: (3/4)³·(1/4) · (3/4)³·(1/4) -/
example : Factory.Valid c45_sorted c45_frame ∧ Acyclic c45_frame.Names ∧
    (∀ c ∈ c45_frame.columns, (Factory.pa c45_sorted c).Pairwise (fun a b => strLe a b = true)) ∧
    (∀ c ∈ c45_frame.columns, c ∉ Factory.pa c45_sorted c) ∧ c104_likelihood c45_sorted = some (729 / 65536) :=
  ⟨c45_valid (by decide +kernel) (by decide +kernel), c45_apart, by decide +kernel, by decide +kernel, by decide +kernel⟩

/-- **C104** is false of the code: with the parents of the third column listed as `b, a`, the network with the same nodes, parents and values
that is learned from `a, b` gives the data a larger probability than the learned one. -/
theorem c104_false : Factory.Valid c45_unsorted c45_frame ∧ Acyclic c45_frame.Names ∧ (∀ c ∈ c45_frame.columns, c ∉ Factory.pa c45_unsorted c) ∧
    ∃ b ops, Factory.fromData c45_unsorted c45_frame = .ok b ∧ c45_frame.Candidate c45_unsorted b ∧ c45_frame.Candidate c45_unsorted (Bbn.run ops) ∧
      c45_frame.likelihood b < c45_frame.likelihood (Bbn.run ops) := by
  have hv : Factory.Valid c45_unsorted c45_frame := c45_valid (by decide +kernel) (by decide +kernel)
  have hv' : Factory.Valid c45_sorted c45_frame := c45_valid (by decide +kernel) (by decide +kernel)
  obtain ⟨ops, hb, C⟩ := learned_candidate hv c45_apart (by decide +kernel)
  obtain ⟨ops', hb', C'⟩ := learned_candidate hv' c45_apart (by decide +kernel)
  refine ⟨hv, c45_apart, by decide +kernel, _, ops', hb, C, ⟨C'.wf, C'.names, ⟨hv.keys, ?_, ?_⟩, C'.normalized, C'.occurs⟩, ?_⟩
  · intro c
    rw [← C'.describes.same c]
    exact (hv.same c).trans (hv'.same c).symm
  · intro v hm p
    rw [← C'.describes.parents v hm p]
    have hc : v.name ∈ c45_frame.columns := (candidate_names hv'.same hv'.cols C').mem_iff.1 (List.mem_map.2 ⟨_, hm, rfl⟩)
    have hall : ∀ c ∈ c45_frame.columns, (Factory.pa c45_unsorted c).Perm (Factory.pa c45_sorted c) := by decide +kernel
    exact (hall _ hc).mem_iff
  · have e1 : c104_likelihood c45_unsorted = some (c45_frame.likelihood (Bbn.run ops)) := by
      unfold c104_likelihood; rw [hb]; rfl
    have e2 : c104_likelihood c45_sorted = some (c45_frame.likelihood (Bbn.run ops')) := by
      unfold c104_likelihood; rw [hb']; rfl
    have hlt : ((c104_likelihood c45_unsorted).getD 0) < ((c104_likelihood c45_sorted).getD 0) := by decide +kernel
    rw [e1, e2] at hlt
    exact hlt

end PyBBN
