# Formal model of lebedec/bumaga — design

The model is written in Lean 4 under `lean/Verif/`. Every definition of the model cites the file and lines of
`/repo` it models and says where it simplifies. Layout of the project:

* `Verif/Props/*.lean` — the property theorems, named `Cnn_…`, each beside a concrete case that meets its hypotheses;
* `Verif/Spec/*.lean` — the small, independent specifications the theorems are stated with (they do not use
  the model's helpers; when a specification is a line or two it stands at the head of the property file);
* everything else — the model (functions with citations) and lemmas about it.

`properties.jsonl` is the list of properties, `MANIFEST.json` (generated by `tools/manifest.py`) the state of
each, `AXIOMS.md` (generated by `tools/axioms.py`) the axioms of each theorem, `seeded/LOG.jsonl` the wrong
programs the theorems were tested against (`tools/mutate.py`, specifications in `seeded/*.json`).

## Trusted base

* **Lean 4.33's kernel.** No axioms of our own; each theorem depends at most on `propext`,
  `Classical.choice` and `Quot.sound` (per theorem in `AXIOMS.md`). `decide +kernel` is evaluated by the kernel.
* **The reading of the Rust source.** Nothing of /repo was built or run: there was no compiler and no network.
  The tie between model and code is the citations, and the project's own tests: the model is executable by the kernel, and
  every `#[test]` of `html/reader.rs` (24), `css/reader.rs` (26), `view_model.rs` (8) and `view.rs` (20) is transcribed
  in `Verif/Conformance`, its texts copied, and evaluates on the model to what the project expects of the code. These
  theorems are tests of the model, not claims of the manifest. The tests of `view.rs` need Taffy's layout; a small block
  layout (`Conformance/Run` `flow`) stands in for it there and nowhere else.
* **Third party semantics**, written from documentation and memory:
  * `pest` as a parsing-expression-grammar machine (`Peg/Basic`): ordered choice, greedy repetition, implicit
    white space and comments in non-atomic rules, silent and atomic rules, failure when a repetition does not
    advance is impossible in these grammars (proved). The `EOI` pair is left out, `SOI` is the empty expression.
    `css.pest` and `html.pest` are transcribed rule by rule (`Css/Grammar`, `Html/Grammar`).
  * `taffy` 0.6: only `TaffyTree`'s child list operations (`add_child`, `insert_child_at_index`, `remove_child`,
    `children`, …, with their panics) in `View/Tree`. The layout solver is a parameter: any function to boxes.
    It keeps results at the nodes; `View/Cache` says which ones `mark_dirty`, `set_style` and the child operations throw away (those of
    the node and of all above it) and lets the engine use any that is left. Trusted: a result that was kept is what computing it
    again from the same styles, children, texts and fonts would give.
  * `serde_json`: `Value`, its accessors, its sorted map, number formatting of integers; text of other floats
    is a parameter.
  * `std::time::Duration`: `from_secs_f64` (nearest nanosecond, panics) and its `Debug` text (`ViewModel/Duration`).
  * `std::collections::HashMap`: a finite function; where the code iterates over one, the theorems quantify
    over every order (C47).
  * `f32`/`f64` are rationals: no rounding, no overflow, no NaN except where a division by zero makes one (then the
    model reports a `nan` trouble). Casts `as u8`, `as usize`, `as i32` saturate as Rust's do. C02 is about the real `f64` bound.
    C91–C97, C99 and C100 do the arithmetic of animations, transitions, scrolling, positions, opacity, lengths, pointing and
    colours again with every operation rounded to the nearest `f32`
    (ties to even, subnormals included); overflow, infinities, NaN and the sign of zero are not in that model.
  * Arithmetic on `usize` is on naturals; underflow is modelled as a panic where the code subtracts.

* `Platform.inline` of the whole program (C73–C76) stands for `read_inline_css`; the theorems hold for any such function, and
  `Platform.Honest` says that it is the modelled reader (which is total by C70).

## What is modelled

| /repo/src | model | notes |
|---|---|---|
| `value.rs` | `Value` | all of it |
| `view_model.rs` | `ViewModel/*` | schema, `bind`, pipes, reactions, memorised state, the `duration` transformer; otherwise transformers are a parameter (any functions) |
| `view.rs` | `View/*` (composed in `View/Whole`), `Input/*` | `from_html`, `react`, `bind`, `apply_styles`, positions, `handle_output`, `update` |
| `rendering.rs` | `View/Render*`, `View/Schema` | all of it, by recursion with fuel; termination is C26 |
| `element.rs`, `tree.rs`, `controls/img.rs` | `View/Element`, `View/Tree` | all fields the other modules read |
| `input.rs`, `output.rs` | `Input/Model`, `Input/Builder` | events and messages, the builder |
| `html/reader.rs`, `html.pest` | `Peg/*`, `Html/*` | all of it |
| `css/reader.rs`, `css.pest`, `css/model.rs` | `Css/{Grammar,Reader,…}`, `Css/Types`, `Css/PropertyKey` | all of it, the 593 property keys included |
| `css/matching.rs` | `Css/Matching` | the iterator machine |
| `animation.rs`, `styles/scrolling.rs`, once more with rounding | `Float/*`, `Spec/Rounding`, `Spec/RoundedRuns` | `wrapTimeIn`, `Animator.playIn`, `animateIn`, `mixIn`, `Transition.playIn`, `Scrolling.*In`, `placeTreeIn`; with no rounding they are the exact model (`*_id`) |
| `styles/*.rs` | `Css/{Compute,Apply,Initial,…}`, `View/Styling*`, `View/Layout` | cascade, shorthands, functions, application, inheritance, scrolling |
| `animation.rs` | `Css/Animation` | tracks, transitions, interpolation |

## What is not modelled

`fonts.rs` (a trait, and an implementation only the crate's tests use), `testing.rs`, the registry the counters are published in, the counters of updates that fail, the `Display` of errors, logging, the layout solver
itself (but see C82 for what it may keep). The translator, the transformers, the output of the layout solver and the clock are parameters, so
the theorems hold for all of them. Errors are modelled by what the code does next, not by their message.

## Per property

| id | model | proof |
|----|-------|-------|
| C01–C03 | `value.rs` on a JSON type | case analysis; digit-string round trip |
| C04–C09 | `bind_value` as well-founded mutual recursion over JSON | induction over value and shape; refinement to `project` |
| C10–C12 | `BindingParams`, pipes and reactions of `view_model.rs` | case analysis, fold induction; counterexample for C12 |
| C13–C16 | `View::react` on a tree state | refinement to a filter of the template children; invariant by induction over reactions |
| C17–C21 | spans, attributes, composition of bind and react | induction over histories |
| C22 | `identified` table; `View/Ids`: the table over rendering, updates and runs | counterexamples, partial, exact for documents without bound ids |
| C23–C27, C61 | `rendering.rs` as recursion over template IR with fuel | induction over the template; refinement to lexical scopes |
| C65 | a walk over the tree state of a view | refinement to an independent reading of the template with the last value |
| C28–C38, C62, C66 | event dispatch as a state machine with an emission log | invariants by induction over events and sessions |
| C39–C42 | `matching.rs` iterator machine | refinement to a recursive CSS definition |
| C43–C50, C67, C72 | cascade, shorthand, variables, application, inheritance | fold induction; commutation; induction over the tree; counterexamples |
| C51–C56 | `animation.rs` on rationals | arithmetic, induction over frames; counterexamples for divergence |
| C57–C59 | position/opacity/clip/scroll recursion | tree induction, induction over frames |
| C60, C68, C69 | `html/reader.rs` and `html.pest` | soundness and completeness of the PEG machine on an independent written syntax |
| C63, C64, C70, C71 | `css/reader.rs`, `css.pest`, `css/model.rs` | the same; the finite table of names by kernel evaluation of the whole table |
| C73–C76 | `view.rs` as a whole: `from_html` and `update` composed of the models of the parts | composition of the other theorems; invariants over runs; counterexamples |
| C77 | the same | an independent reading of the stylesheet (`Spec/Look.lean`) composed with C39, C43, C49, C50 |
| C91–C94 | `animation.rs` and `scrolling.rs` once more, every operation rounded to the nearest 32-bit number (`Float/Model`; with exact arithmetic it is the other model, proved) | theory of rounding (`Float/Basic`), an instance (`Float/Concrete`); counterexamples with ties to even |
| C95, C96 | keyframes of `animation.rs`; `compute_final_positions_and_clipping` with rounding (`Float/Placed`) | C53's proof with the rounded track; induction over the way from the body, error bound of rounding (`Float/Bounds`) |
| C97 | `read_number` … `read_seconds`, `parse_dimension_length`, `resolve_length` with rounding (`Float/Lengths`, `Float/Reads`) | relative error of rounding; the grammar proof of C71 with rounded values |
| C98 | `initial.rs` table, `reset`/`inherit`, `apply` | every displayed property, one arm each |
| C99 | `hovers`, `calculate_mouse_hovers` with rounding (`Float/Pointing`) | signs of rounded differences are right; relative error at the far edge |
| C100 | `map_c`, `map_a` with rounding (`Float/Pointing`) | two roundings are off by less than 1/32768; the four percentages with a whole product bit by bit |
| C101 | `Component::update` over whole runs with two series of values (`Spec/Data`) | the notifications of `bind` agree up to the contents of arrays, reactions ignore those unless piped (`NoPipedArrays`); induction over the frames |
| C102 | `calculate_elements_stylesheet`, `apply_styles`, whole runs with two stylesheets (`Spec/Useless`) | such a rule matches nothing in any tree with the types and unbound attributes of the opened one (an invariant of runs); simulation of the kept rules, of styling and of runs |
| C103 | the builder of `input.rs` (`Input/Builder`) | induction over the calls |
| C104 | `compute_declaration_block`, `compute_style`, kept rules, whole runs with two stylesheets (`Spec/Copies`) | what a block writes does not depend on what is there, and later writing forgets earlier writing (exactly, with the order of the map); simulation as for C102 |
| C105 | blocks, kept rules, animators, transitions, whole runs with two stylesheets (`Spec/Swaps`) | blocks that write different places commute up to the order of the map (C104 machinery); everything after does not depend on that order (C47 machinery); simulation as for C104 with the invariant of C84 |
| C106 | `rendering.rs`, the loop over the document in `view.rs` (`Spec/Documents`) | rendering respects every relation of template nodes that is kept by what rendering looks at (`DocAlike`); here: the same node with templates that agree where it needs them |
| C107 | the same | the same lemma for the relation "links replaced" |
| C108 | `matching.rs`, the kept rules in `view.rs` (`Spec/Wordings`) | matching of the reversed list of parts is a congruence; the kept rules correspond one by one; simulation as for C102 |
| C109 | the same (`Spec/Parts`) | programs whose matching rules come to the same behave the same (`played_alike`, from C42 for whole runs); the same declarations twice are the same as once (C104) |
| C110 | the same (`Spec/Narrower`) | matching is monotone in the list of parts; `played_alike` |
| C111 | the same (`Spec/Outdone`) | which rules are kept and used depends on their selectors only (`played_parts`); what single words write depends on the property and their number, and a later write at the same places hides the earlier one |
| C112, C113 | the same (`Spec/Spelled`, `Spec/Joined`) | `played_parts`; blocks come to the same by computation, blocks of joined rules are the same list |
| C114 | the same | `played_parts` (only selectors with `+` can fail to be matched) |
| C115 | the same (`Spec/Inlined`) | `played_parts`; induction over the block with what is known of variables |
| C116 | the same (`Spec/Redefined`) | `played_parts`; blocks do not see what they define again |
| C90 | `render_element`, `Reaction::Bind` of `update_tree`, `read_inline_css` | an invariant of all elements over runs (`View/Dressed`), composed with C71 |
| C89 | `duration` of `view_model.rs`, `std::time::Duration` as trusted | arithmetic on rationals, induction over the digits; C18 for what is shown |
| C88 | `apply.rs`, `element.rs`, `animation.rs` | read-back of single assignments out of the whole computed style (as C43), along runs with C81's steps; tables of the words (`Spec/SetUp`) |
| C87 | `element.rs` `Borders`, `apply.rs`, `view.rs` | an invariant of all elements with their layout styles over runs (`View/Borders`) |
| C86 | `metrics.rs`, `styles/stats.rs` and their uses, as state threaded through the same recursions (`View/Metrics`) | erasing the counters gives the plain model; a list of the elements styled, one entry each (`Tally`), of which every counter is a sum |
| C85 | `view.rs` `update` as a whole | restyling, replacing and rehovering what has just been styled, placed and hovered is the identity |
| C84 | `view.rs`, hash maps as arbitrary permutations per update | C47 and C82 composed along runs |
| C83 | `animation.rs` transitions, `styles/mod.rs`, `view.rs` | state of the transition as an invariant along the run (`View/Transitions`), then C55's step and C77 for the look |
| C82 | `view.rs` marking, `set_style`, `measure_text`; taffy's kept results as a relation | an invariant between what is kept and what is there (`View/CacheLemmas`), over runs with memory; that fonts never change (`View/Fonts*`) from the rules and inline styles that can give one, with animations and transitions of other properties going on |
| C81 | the same, `animation.rs` | a clock invariant over runs (`View/Clock`), then C53 and C77 for the look |
| C80 | the same, `controls/img.rs` | an invariant of all images over rendering, reactions, styling, placing and input |
| C78, C79 | the same, and the input log as a ghost | composition of C57, C58, C27 over runs; an invariant of scroll offsets; a bisimulation that drops wheel events |

A property is *partial* in the manifest when its full claim is false of the code: then the theorem with the
suffix `_partial` has the condition under which it holds, and another theorem is the counterexample.

## Findings

Behaviour of the code that contradicts what a user would expect; each has a counterexample theorem unless noted.

* C07: `*x="0 {xs}"` and values that do not fit the template's shape make `bind` panic.
* C09, C19, C20: arrays directly in arrays, and items that vanish and come back, are not rebound: stale content stays.
* C12: an object condition does not notice the object becoming null when nothing inside changes.
* C15: a repeat followed by siblings puts grown items after the siblings.
* C22: a bound `id` that changes keeps its old entry in the lookup (`C22_stale_program` in a run of a program), and an id written as a
  bound attribute without binding (`@id="a"`) is set on the element and never entered into the lookup (`C22_text_id`).
* C23, C24: duplicate aliases on an element leak; a loop variable may shadow its own array.
* C25: mixed use of a path, keys like `007`, and `this`. C26: a template that contains itself never ends.
* C32: releasing a dragged element anywhere but on an `ondrop` element does not end the drag.
* C36: splitting a batch of events changes the messages.
* C39–C42: `[a|=v]`, tabs in `class`, empty `^=`, `:root`; `+` looks at the wrong sibling; kept rules miss bound
  ancestors and `#id` after a tag.
* C44: `gap` has its values exchanged, `inset` with two or three values is ignored.
* C46, C52, C56: cyclic variables, animations without duration and the first value of a transition hang a frame.
* C47: with more than one value for a single-valued property the result depends on hash order.
* C48: layout properties, cursor and visibility stay after the rule that set them has stopped matching.
* C55: a transition with delay jumps back; with zero duration it is never done.
* C59: overflow on one axis gives a negative scroll offset on the other.
* C60, C69: a line break between a word and a binder is lost in the last text; a script containing `<!--`
  swallows what follows; and the other deviations in `Props/Read`.
* C63: 22 names are only known misspelled (`border-styles`), C64: `#f00` is white; C71: two blanks between values,
  a missing last semicolon and more in `Props/ReadCss`.
* C65: an item that vanished and came back with a longer inner list hides the last entries of that list.
* C72: `green` is `#00ff00`, and `currentcolor` of a border is the colour of the parent element.
* C73: a rule with `+` makes opening panic (overflow checks), a template in itself makes it endless.
* C76: a viewport change is noticed only if both dimensions change.
* C78: an element outside the frame it is clipped by still gets hovered and pressed.
* C79: the mouse wheel does nothing (`Scrolling::offset` is never called).
* C80: `#src` changes the attribute but not the picture; `visibility: hidden` on an image does not hide its picture
  (visibility is not inherited at all, neither by texts).
* C81: an animation is never taken away: it goes on playing after the rule that declared it has stopped matching.
* C82: a text whose font changes (`p:hover{font-size:40px}`) keeps the box of its old font until something else in it or below
  one of the nodes above it is marked. Replacing `View::fonts` between updates goes unnoticed as well.
* C84: with `color: #f00, #00f` a program shows red in one run and blue in another.
* C85: with `p:hover { pointer-events: none }` a program that gets nothing new goes on and off: hover is decided after styling, with
  the styles the hover of the update before gave. Elements under a resting pointer are sent `onmousemove` in every update.
* C87_room_stays: the room for a border of a rule that no longer applies (`:hover`) stays in the layout although no border is shown.
* C88: `animation-direction`, `animation-fill-mode` and timing functions are kept but never read: `reverse` and `ease-in` play forward
  and evenly.
* C89: the `duration` pipe panics on negative numbers (`C89_negative_counterexample`).
* C90: `@style="left:0;"` (no expression in it) is never read as a style (`C90_text_counterexample`), and
  `@style="left:0;width:{w}px;"` not before a value is bound.
* C91: by rounding, animations of three or more iterations mostly end at the first keyframe instead of the last (`0.1s`, `0.2s`,
  `0.4s` … with 3 iterations; not `0.5s`, `1s`). In exact arithmetic C51 holds: the bug is only in the rounding.
* C92: by rounding, an infinite animation of `1ms` hangs the program after about ten hours, or at once after the computer has slept
  so long; all infinite animations stand still after some days.
* C97: by rounding, ten columns of `10vw` are wider than a viewport of 101 pixels, and `100vw` may differ from a fractional width.
* C98: a keyframe animation of `font-size`, `font-weight`, `font-style` or `pointer-events` without a keyframe at 0% starts from the initial value, not from the inherited one: a text of 32 pixels jumps to 16 (`C98_program_counterexample`). The initial `box-sizing` and border colours are not those of an undeclared element either.
* C101: a transformer given a whole array (`{items | f}`) sees keys of the items that the document never mentions, but is only called again when something mentioned changes: what is shown can be stale or depend on unmentioned data (`C101_piped_array_counterexample`).
* C104: `p { width: var(--a); --a: 3px }` leaves the width alone, since a rule sees only the variables defined before; CSS has no such order. Written twice, it sets the width (`C104_late_variable_counterexample`).
* C105: no deviation found: the order of rules that set different properties is immaterial, also with animations and transitions at work.
* C107: a template whose content is a link (`<template id="a"><link href="#b"></template>`) shows an empty `link` element where it is used, not template `b` (`C107_chain_counterexample`).
* C108: with overflow checks `b, a + b {}` can be opened for `<a/><b/>` and `a + b, b {}` panics: the first selector that matches ends the search (`C108_plus_counterexample`).
* C109: `[title=x], .open > .child {}` is not the same as a rule for each selector: where `title` is bound, the first selector makes the whole rule be checked in every frame, so that the second matches when the class of the parent changes; alone it is dropped when the document is opened (`C109_counterexample`, a consequence of the finding for C42).
* C110: putting the narrower selector `.open > .child[title=x]` next to `.open > .child` makes the rule apply to elements that do not have this title, and to which it did not apply before (`C110_counterexample`, a consequence of the finding for C42).
* C111: a declaration with fewer values in its list does not override all of an earlier one: after `width: 3px, 5px; width: 10px` the width is 5px or 10px, depending on the order of a hash map (`C111_list_counterexample`). And `width: 7px 8px` overrides nothing (`C111_words_counterexample`, as in CSS).
* C114: with overflow checks, an empty rule `a + b, b {}` keeps a document from opening (`C114_plus_counterexample`, a consequence of the finding for C40).
* Without theorem: the element's own `em` uses the parent's font size; the key pair for two `@key` bindings registers both.
