import Verif.Model.Syntax
/-
GENERATED by /verif/tools/gen_grammar.py from /repo/logstash_config.go:22-8060 (the
grammar `g`) and the `onX` / `callonX` methods at :8062-11833.  Do not edit.
The structured definition in Grammar.lean is proved equal to this transcript
in Grammar.lean (`gram_eq_go`).
-/
namespace Verif.Go

/-- Rule `init` (logstash_config.peg:7) as found in logstash_config.go. -/
def r_init : Ex :=
  .action (.retConfig .conf) (
    .seq [
      .state .initState,
      .andCode .initParser,
      .labeled .conf (
        .choice [
          .action (.ret .conf) (
            .seq [
              .labeled .conf (
                .ref .config),
              .not (
                .any)]),
          .action .newConfig (
            .seq [
              .star (
                .choice [
                  .action .comment (
                    .plus (
                      .seq [
                        .opt (
                          .action .whitespace (
                            .plus (
                              .cls b!"[ \\t\\r\\n]" false [32, 9, 13, 10] []))),
                        .lit b!"#",
                        .star (
                          .cls b!"[^\\r\\n]" true [13, 10] []),
                        .opt (
                          .lit b!"\r"),
                        .choice [
                          .lit b!"\n",
                          .not (
                            .any)]])),
                  .action .whitespace (
                    .plus (
                      .cls b!"[ \\t\\r\\n]" false [32, 9, 13, 10] []))]),
              .not (
                .any)])])])

/-- Rule `config` (logstash_config.peg:29) as found in logstash_config.go. -/
def r_config : Ex :=
  .action (.config .ps .pss .psComment .footerComment) (
    .seq [
      .labeled .psComment (
        .star (
          .choice [
            .action .comment (
              .plus (
                .seq [
                  .opt (
                    .action .whitespace (
                      .plus (
                        .cls b!"[ \\t\\r\\n]" false [32, 9, 13, 10] []))),
                  .lit b!"#",
                  .star (
                    .cls b!"[^\\r\\n]" true [13, 10] []),
                  .opt (
                    .lit b!"\r"),
                  .choice [
                    .lit b!"\n",
                    .not (
                      .any)]])),
            .action .whitespace (
              .plus (
                .cls b!"[ \\t\\r\\n]" false [32, 9, 13, 10] []))])),
      .labeled .ps (
        .ref .pluginSection),
      .labeled .pss (
        .star (
          .action (.configSection .ps .psComment) (
            .seq [
              .labeled .psComment (
                .star (
                  .choice [
                    .action .comment (
                      .plus (
                        .seq [
                          .opt (
                            .action .whitespace (
                              .plus (
                                .cls b!"[ \\t\\r\\n]" false [32, 9, 13, 10] []))),
                          .lit b!"#",
                          .star (
                            .cls b!"[^\\r\\n]" true [13, 10] []),
                          .opt (
                            .lit b!"\r"),
                          .choice [
                            .lit b!"\n",
                            .not (
                              .any)]])),
                    .action .whitespace (
                      .plus (
                        .cls b!"[ \\t\\r\\n]" false [32, 9, 13, 10] []))])),
              .labeled .ps (
                .ref .pluginSection)]))),
      .labeled .footerComment (
        .star (
          .choice [
            .action .comment (
              .plus (
                .seq [
                  .opt (
                    .action .whitespace (
                      .plus (
                        .cls b!"[ \\t\\r\\n]" false [32, 9, 13, 10] []))),
                  .lit b!"#",
                  .star (
                    .cls b!"[^\\r\\n]" true [13, 10] []),
                  .opt (
                    .lit b!"\r"),
                  .choice [
                    .lit b!"\n",
                    .not (
                      .any)]])),
            .action .whitespace (
              .plus (
                .cls b!"[ \\t\\r\\n]" false [32, 9, 13, 10] []))])),
      .not (
        .any)])

/-- Rule `pluginSection` (logstash_config.peg:83) as found in logstash_config.go. -/
def r_pluginSection : Ex :=
  .action (.pluginSection .pt .bops .footerComment) (
    .seq [
      .labeled .pt (
        .choice [
          .action (.ptype .input) (
            .lit b!"input"),
          .action (.ptype .filter) (
            .lit b!"filter"),
          .action (.ptype .output) (
            .lit b!"output"),
          .andCode (.pushError b!"expect plugin type (input, filter, output)")]),
      .action .str (
        .star (
          .choice [
            .action .comment (
              .plus (
                .seq [
                  .opt (
                    .action .whitespace (
                      .plus (
                        .cls b!"[ \\t\\r\\n]" false [32, 9, 13, 10] []))),
                  .lit b!"#",
                  .star (
                    .cls b!"[^\\r\\n]" true [13, 10] []),
                  .opt (
                    .lit b!"\r"),
                  .choice [
                    .lit b!"\n",
                    .not (
                      .any)]])),
            .action .whitespace (
              .plus (
                .cls b!"[ \\t\\r\\n]" false [32, 9, 13, 10] []))])),
      .state .warnComment,
      .lit b!"{",
      .labeled .bops (
        .star (
          .action (.ret .bop) (
            .labeled .bop (
              .ref .branchOrPlugin)))),
      .labeled .footerComment (
        .star (
          .choice [
            .action .comment (
              .plus (
                .seq [
                  .opt (
                    .action .whitespace (
                      .plus (
                        .cls b!"[ \\t\\r\\n]" false [32, 9, 13, 10] []))),
                  .lit b!"#",
                  .star (
                    .cls b!"[^\\r\\n]" true [13, 10] []),
                  .opt (
                    .lit b!"\r"),
                  .choice [
                    .lit b!"\n",
                    .not (
                      .any)]])),
            .action .whitespace (
              .plus (
                .cls b!"[ \\t\\r\\n]" false [32, 9, 13, 10] []))])),
      .choice [
        .lit b!"}",
        .andCode (.pushError b!"expect closing curly bracket")]])

/-- Rule `branchOrPlugin` (logstash_config.peg:100) as found in logstash_config.go. -/
def r_branchOrPlugin : Ex :=
  .choice [
    .ref .branch,
    .ref .plugin]

/-- Rule `plugin` (logstash_config.peg:134) as found in logstash_config.go. -/
def r_plugin : Ex :=
  .action (.plugin .name .attributes .comment .footerComment) (
    .seq [
      .labeled .comment (
        .star (
          .choice [
            .action .comment (
              .plus (
                .seq [
                  .opt (
                    .action .whitespace (
                      .plus (
                        .cls b!"[ \\t\\r\\n]" false [32, 9, 13, 10] []))),
                  .lit b!"#",
                  .star (
                    .cls b!"[^\\r\\n]" true [13, 10] []),
                  .opt (
                    .lit b!"\r"),
                  .choice [
                    .lit b!"\n",
                    .not (
                      .any)]])),
            .action .whitespace (
              .plus (
                .cls b!"[ \\t\\r\\n]" false [32, 9, 13, 10] []))])),
      .labeled .name (
        .choice [
          .action (.string .bareword) (
            .plus (
              .cls b!"[_-A-Za-z0-9]" false [95, 45] [(65, 90), (97, 122), (48, 57)])),
          .action (.ret .value) (
            .labeled .value (
              .action (.ret .str) (
                .labeled .str (
                  .choice [
                    .action (.string .doubleQuoted) (
                      .labeled .str (
                        .action .enclosedValue (
                          .seq [
                            .lit b!"\"",
                            .star (
                              .choice [
                                .lit b!"\\\"",
                                .seq [
                                  .not (
                                    .lit b!"\""),
                                  .any]]),
                            .choice [
                              .lit b!"\"",
                              .andCode (.fatalError b!"expect closing double quotes (\")")]]))),
                    .action (.string .singleQuoted) (
                      .labeled .str (
                        .action .enclosedValue (
                          .seq [
                            .lit b!"'",
                            .star (
                              .choice [
                                .lit b!"\\'",
                                .seq [
                                  .not (
                                    .lit b!"'"),
                                  .any]]),
                            .choice [
                              .lit b!"'",
                              .andCode (.fatalError b!"expect closing single quote (')")]])))]))))]),
      .action .str (
        .star (
          .choice [
            .action .comment (
              .plus (
                .seq [
                  .opt (
                    .action .whitespace (
                      .plus (
                        .cls b!"[ \\t\\r\\n]" false [32, 9, 13, 10] []))),
                  .lit b!"#",
                  .star (
                    .cls b!"[^\\r\\n]" true [13, 10] []),
                  .opt (
                    .lit b!"\r"),
                  .choice [
                    .lit b!"\n",
                    .not (
                      .any)]])),
            .action .whitespace (
              .plus (
                .cls b!"[ \\t\\r\\n]" false [32, 9, 13, 10] []))])),
      .state .warnComment,
      .lit b!"{",
      .labeled .attributes (
        .opt (
          .action (.attributes .attribute .attrs .comment) (
            .seq [
              .labeled .comment (
                .star (
                  .choice [
                    .action .comment (
                      .plus (
                        .seq [
                          .opt (
                            .action .whitespace (
                              .plus (
                                .cls b!"[ \\t\\r\\n]" false [32, 9, 13, 10] []))),
                          .lit b!"#",
                          .star (
                            .cls b!"[^\\r\\n]" true [13, 10] []),
                          .opt (
                            .lit b!"\r"),
                          .choice [
                            .lit b!"\n",
                            .not (
                              .any)]])),
                    .action .whitespace (
                      .plus (
                        .cls b!"[ \\t\\r\\n]" false [32, 9, 13, 10] []))])),
              .labeled .attribute (
                .ref .attribute),
              .labeled .attrs (
                .star (
                  .action (.attributeComment .attribute .comment true) (
                    .seq [
                      .action .whitespace (
                        .plus (
                          .cls b!"[ \\t\\r\\n]" false [32, 9, 13, 10] [])),
                      .labeled .comment (
                        .star (
                          .choice [
                            .action .comment (
                              .plus (
                                .seq [
                                  .opt (
                                    .action .whitespace (
                                      .plus (
                                        .cls b!"[ \\t\\r\\n]" false [32, 9, 13, 10] []))),
                                  .lit b!"#",
                                  .star (
                                    .cls b!"[^\\r\\n]" true [13, 10] []),
                                  .opt (
                                    .lit b!"\r"),
                                  .choice [
                                    .lit b!"\n",
                                    .not (
                                      .any)]])),
                            .action .whitespace (
                              .plus (
                                .cls b!"[ \\t\\r\\n]" false [32, 9, 13, 10] []))])),
                      .labeled .attribute (
                        .ref .attribute)])))]))),
      .labeled .footerComment (
        .star (
          .choice [
            .action .comment (
              .plus (
                .seq [
                  .opt (
                    .action .whitespace (
                      .plus (
                        .cls b!"[ \\t\\r\\n]" false [32, 9, 13, 10] []))),
                  .lit b!"#",
                  .star (
                    .cls b!"[^\\r\\n]" true [13, 10] []),
                  .opt (
                    .lit b!"\r"),
                  .choice [
                    .lit b!"\n",
                    .not (
                      .any)]])),
            .action .whitespace (
              .plus (
                .cls b!"[ \\t\\r\\n]" false [32, 9, 13, 10] []))])),
      .choice [
        .lit b!"}",
        .andCode (.fatalError b!"expect closing curly bracket")]])

/-- Rule `attribute` (logstash_config.peg:170) as found in logstash_config.go. -/
def r_attribute : Ex :=
  .action (.attribute .name .value) (
    .seq [
      .labeled .name (
        .choice [
          .action (.string .bareword) (
            .plus (
              .cls b!"[_-A-Za-z0-9]" false [95, 45] [(65, 90), (97, 122), (48, 57)])),
          .action (.ret .value) (
            .labeled .value (
              .action (.ret .str) (
                .labeled .str (
                  .choice [
                    .action (.string .doubleQuoted) (
                      .labeled .str (
                        .action .enclosedValue (
                          .seq [
                            .lit b!"\"",
                            .star (
                              .choice [
                                .lit b!"\\\"",
                                .seq [
                                  .not (
                                    .lit b!"\""),
                                  .any]]),
                            .choice [
                              .lit b!"\"",
                              .andCode (.fatalError b!"expect closing double quotes (\")")]]))),
                    .action (.string .singleQuoted) (
                      .labeled .str (
                        .action .enclosedValue (
                          .seq [
                            .lit b!"'",
                            .star (
                              .choice [
                                .lit b!"\\'",
                                .seq [
                                  .not (
                                    .lit b!"'"),
                                  .any]]),
                            .choice [
                              .lit b!"'",
                              .andCode (.fatalError b!"expect closing single quote (')")]])))]))))]),
      .action .str (
        .star (
          .choice [
            .action .comment (
              .plus (
                .seq [
                  .opt (
                    .action .whitespace (
                      .plus (
                        .cls b!"[ \\t\\r\\n]" false [32, 9, 13, 10] []))),
                  .lit b!"#",
                  .star (
                    .cls b!"[^\\r\\n]" true [13, 10] []),
                  .opt (
                    .lit b!"\r"),
                  .choice [
                    .lit b!"\n",
                    .not (
                      .any)]])),
            .action .whitespace (
              .plus (
                .cls b!"[ \\t\\r\\n]" false [32, 9, 13, 10] []))])),
      .state .warnComment,
      .lit b!"=>",
      .action .str (
        .star (
          .choice [
            .action .comment (
              .plus (
                .seq [
                  .opt (
                    .action .whitespace (
                      .plus (
                        .cls b!"[ \\t\\r\\n]" false [32, 9, 13, 10] []))),
                  .lit b!"#",
                  .star (
                    .cls b!"[^\\r\\n]" true [13, 10] []),
                  .opt (
                    .lit b!"\r"),
                  .choice [
                    .lit b!"\n",
                    .not (
                      .any)]])),
            .action .whitespace (
              .plus (
                .cls b!"[ \\t\\r\\n]" false [32, 9, 13, 10] []))])),
      .state .warnComment,
      .labeled .value (
        .ref .value)])

/-- Rule `value` (logstash_config.peg:179) as found in logstash_config.go. -/
def r_value : Ex :=
  .choice [
    .ref .plugin,
    .action (.string .bareword) (
      .seq [
        .cls b!"[_A-Za-z]" false [95] [(65, 90), (97, 122)],
        .plus (
          .cls b!"[_A-Za-z0-9]" false [95] [(65, 90), (97, 122), (48, 57)])]),
    .action (.ret .str) (
      .labeled .str (
        .choice [
          .action (.string .doubleQuoted) (
            .labeled .str (
              .action .enclosedValue (
                .seq [
                  .lit b!"\"",
                  .star (
                    .choice [
                      .lit b!"\\\"",
                      .seq [
                        .not (
                          .lit b!"\""),
                        .any]]),
                  .choice [
                    .lit b!"\"",
                    .andCode (.fatalError b!"expect closing double quotes (\")")]]))),
          .action (.string .singleQuoted) (
            .labeled .str (
              .action .enclosedValue (
                .seq [
                  .lit b!"'",
                  .star (
                    .choice [
                      .lit b!"\\'",
                      .seq [
                        .not (
                          .lit b!"'"),
                        .any]]),
                  .choice [
                    .lit b!"'",
                    .andCode (.fatalError b!"expect closing single quote (')")]])))])),
    .action .number (
      .seq [
        .opt (
          .lit b!"-"),
        .plus (
          .cls b!"[0-9]" false [] [(48, 57)]),
        .opt (
          .seq [
            .lit b!".",
            .star (
              .cls b!"[0-9]" false [] [(48, 57)])])]),
    .ref .array,
    .ref .hash,
    .andCode (.pushError b!"invalid value")]

/-- Rule `array` (logstash_config.peg:280) as found in logstash_config.go. -/
def r_array : Ex :=
  .action (.array .values .footerComment) (
    .seq [
      .lit b!"[",
      .labeled .values (
        .opt (
          .action (.attributes .value .values .comment) (
            .seq [
              .labeled .comment (
                .star (
                  .choice [
                    .action .comment (
                      .plus (
                        .seq [
                          .opt (
                            .action .whitespace (
                              .plus (
                                .cls b!"[ \\t\\r\\n]" false [32, 9, 13, 10] []))),
                          .lit b!"#",
                          .star (
                            .cls b!"[^\\r\\n]" true [13, 10] []),
                          .opt (
                            .lit b!"\r"),
                          .choice [
                            .lit b!"\n",
                            .not (
                              .any)]])),
                    .action .whitespace (
                      .plus (
                        .cls b!"[ \\t\\r\\n]" false [32, 9, 13, 10] []))])),
              .labeled .value (
                .ref .value),
              .labeled .values (
                .star (
                  .action (.attributeComment .value .comment true) (
                    .seq [
                      .action .str (
                        .star (
                          .choice [
                            .action .comment (
                              .plus (
                                .seq [
                                  .opt (
                                    .action .whitespace (
                                      .plus (
                                        .cls b!"[ \\t\\r\\n]" false [32, 9, 13, 10] []))),
                                  .lit b!"#",
                                  .star (
                                    .cls b!"[^\\r\\n]" true [13, 10] []),
                                  .opt (
                                    .lit b!"\r"),
                                  .choice [
                                    .lit b!"\n",
                                    .not (
                                      .any)]])),
                            .action .whitespace (
                              .plus (
                                .cls b!"[ \\t\\r\\n]" false [32, 9, 13, 10] []))])),
                      .state .warnComment,
                      .lit b!",",
                      .labeled .comment (
                        .star (
                          .choice [
                            .action .comment (
                              .plus (
                                .seq [
                                  .opt (
                                    .action .whitespace (
                                      .plus (
                                        .cls b!"[ \\t\\r\\n]" false [32, 9, 13, 10] []))),
                                  .lit b!"#",
                                  .star (
                                    .cls b!"[^\\r\\n]" true [13, 10] []),
                                  .opt (
                                    .lit b!"\r"),
                                  .choice [
                                    .lit b!"\n",
                                    .not (
                                      .any)]])),
                            .action .whitespace (
                              .plus (
                                .cls b!"[ \\t\\r\\n]" false [32, 9, 13, 10] []))])),
                      .labeled .value (
                        .ref .value)])))]))),
      .labeled .footerComment (
        .star (
          .choice [
            .action .comment (
              .plus (
                .seq [
                  .opt (
                    .action .whitespace (
                      .plus (
                        .cls b!"[ \\t\\r\\n]" false [32, 9, 13, 10] []))),
                  .lit b!"#",
                  .star (
                    .cls b!"[^\\r\\n]" true [13, 10] []),
                  .opt (
                    .lit b!"\r"),
                  .choice [
                    .lit b!"\n",
                    .not (
                      .any)]])),
            .action .whitespace (
              .plus (
                .cls b!"[ \\t\\r\\n]" false [32, 9, 13, 10] []))])),
      .choice [
        .lit b!"]",
        .andCode (.fatalError b!"expect closing square bracket")]])

/-- Rule `hash` (logstash_config.peg:308) as found in logstash_config.go. -/
def r_hash : Ex :=
  .action (.hash .entries .footerComment) (
    .seq [
      .lit b!"{",
      .labeled .entries (
        .opt (
          .ref .hashentries)),
      .labeled .footerComment (
        .star (
          .choice [
            .action .comment (
              .plus (
                .seq [
                  .opt (
                    .action .whitespace (
                      .plus (
                        .cls b!"[ \\t\\r\\n]" false [32, 9, 13, 10] []))),
                  .lit b!"#",
                  .star (
                    .cls b!"[^\\r\\n]" true [13, 10] []),
                  .opt (
                    .lit b!"\r"),
                  .choice [
                    .lit b!"\n",
                    .not (
                      .any)]])),
            .action .whitespace (
              .plus (
                .cls b!"[ \\t\\r\\n]" false [32, 9, 13, 10] []))])),
      .choice [
        .lit b!"}",
        .andCode (.fatalError b!"expect closing curly bracket")]])

/-- Rule `hashentries` (logstash_config.peg:322) as found in logstash_config.go. -/
def r_hashentries : Ex :=
  .action (.hashentries .hashentry .hashentries1) (
    .seq [
      .labeled .hashentry (
        .ref .hashentry),
      .labeled .hashentries1 (
        .star (
          .action (.ret .hashentry) (
            .seq [
              .action .whitespace (
                .plus (
                  .cls b!"[ \\t\\r\\n]" false [32, 9, 13, 10] [])),
              .labeled .hashentry (
                .ref .hashentry)])))])

/-- Rule `hashentry` (logstash_config.peg:336) as found in logstash_config.go. -/
def r_hashentry : Ex :=
  .action (.hashentry .name .value .comment) (
    .seq [
      .labeled .comment (
        .star (
          .choice [
            .action .comment (
              .plus (
                .seq [
                  .opt (
                    .action .whitespace (
                      .plus (
                        .cls b!"[ \\t\\r\\n]" false [32, 9, 13, 10] []))),
                  .lit b!"#",
                  .star (
                    .cls b!"[^\\r\\n]" true [13, 10] []),
                  .opt (
                    .lit b!"\r"),
                  .choice [
                    .lit b!"\n",
                    .not (
                      .any)]])),
            .action .whitespace (
              .plus (
                .cls b!"[ \\t\\r\\n]" false [32, 9, 13, 10] []))])),
      .labeled .name (
        .choice [
          .action .number (
            .seq [
              .opt (
                .lit b!"-"),
              .plus (
                .cls b!"[0-9]" false [] [(48, 57)]),
              .opt (
                .seq [
                  .lit b!".",
                  .star (
                    .cls b!"[0-9]" false [] [(48, 57)])])]),
          .action (.string .bareword) (
            .seq [
              .cls b!"[_A-Za-z]" false [95] [(65, 90), (97, 122)],
              .plus (
                .cls b!"[_A-Za-z0-9]" false [95] [(65, 90), (97, 122), (48, 57)])]),
          .action (.ret .str) (
            .labeled .str (
              .choice [
                .action (.string .doubleQuoted) (
                  .labeled .str (
                    .action .enclosedValue (
                      .seq [
                        .lit b!"\"",
                        .star (
                          .choice [
                            .lit b!"\\\"",
                            .seq [
                              .not (
                                .lit b!"\""),
                              .any]]),
                        .choice [
                          .lit b!"\"",
                          .andCode (.fatalError b!"expect closing double quotes (\")")]]))),
                .action (.string .singleQuoted) (
                  .labeled .str (
                    .action .enclosedValue (
                      .seq [
                        .lit b!"'",
                        .star (
                          .choice [
                            .lit b!"\\'",
                            .seq [
                              .not (
                                .lit b!"'"),
                              .any]]),
                        .choice [
                          .lit b!"'",
                          .andCode (.fatalError b!"expect closing single quote (')")]])))]))]),
      .action .str (
        .star (
          .choice [
            .action .comment (
              .plus (
                .seq [
                  .opt (
                    .action .whitespace (
                      .plus (
                        .cls b!"[ \\t\\r\\n]" false [32, 9, 13, 10] []))),
                  .lit b!"#",
                  .star (
                    .cls b!"[^\\r\\n]" true [13, 10] []),
                  .opt (
                    .lit b!"\r"),
                  .choice [
                    .lit b!"\n",
                    .not (
                      .any)]])),
            .action .whitespace (
              .plus (
                .cls b!"[ \\t\\r\\n]" false [32, 9, 13, 10] []))])),
      .state .warnComment,
      .lit b!"=>",
      .action .str (
        .star (
          .choice [
            .action .comment (
              .plus (
                .seq [
                  .opt (
                    .action .whitespace (
                      .plus (
                        .cls b!"[ \\t\\r\\n]" false [32, 9, 13, 10] []))),
                  .lit b!"#",
                  .star (
                    .cls b!"[^\\r\\n]" true [13, 10] []),
                  .opt (
                    .lit b!"\r"),
                  .choice [
                    .lit b!"\n",
                    .not (
                      .any)]])),
            .action .whitespace (
              .plus (
                .cls b!"[ \\t\\r\\n]" false [32, 9, 13, 10] []))])),
      .state .warnComment,
      .labeled .value (
        .ref .value)])

/-- Rule `branch` (logstash_config.peg:350) as found in logstash_config.go. -/
def r_branch : Ex :=
  .action (.branch .ifBlock .elseIfBlocks .elseBlock .ifComment) (
    .seq [
      .labeled .ifComment (
        .star (
          .choice [
            .action .comment (
              .plus (
                .seq [
                  .opt (
                    .action .whitespace (
                      .plus (
                        .cls b!"[ \\t\\r\\n]" false [32, 9, 13, 10] []))),
                  .lit b!"#",
                  .star (
                    .cls b!"[^\\r\\n]" true [13, 10] []),
                  .opt (
                    .lit b!"\r"),
                  .choice [
                    .lit b!"\n",
                    .not (
                      .any)]])),
            .action .whitespace (
              .plus (
                .cls b!"[ \\t\\r\\n]" false [32, 9, 13, 10] []))])),
      .labeled .ifBlock (
        .ref .ifCond),
      .labeled .elseIfBlocks (
        .star (
          .action (.elseIfComment .eib .eibComment) (
            .seq [
              .labeled .eibComment (
                .star (
                  .choice [
                    .action .comment (
                      .plus (
                        .seq [
                          .opt (
                            .action .whitespace (
                              .plus (
                                .cls b!"[ \\t\\r\\n]" false [32, 9, 13, 10] []))),
                          .lit b!"#",
                          .star (
                            .cls b!"[^\\r\\n]" true [13, 10] []),
                          .opt (
                            .lit b!"\r"),
                          .choice [
                            .lit b!"\n",
                            .not (
                              .any)]])),
                    .action .whitespace (
                      .plus (
                        .cls b!"[ \\t\\r\\n]" false [32, 9, 13, 10] []))])),
              .labeled .eib (
                .ref .elseIf)]))),
      .labeled .elseBlock (
        .opt (
          .action (.elseComment .eb .ebComment) (
            .seq [
              .labeled .ebComment (
                .star (
                  .choice [
                    .action .comment (
                      .plus (
                        .seq [
                          .opt (
                            .action .whitespace (
                              .plus (
                                .cls b!"[ \\t\\r\\n]" false [32, 9, 13, 10] []))),
                          .lit b!"#",
                          .star (
                            .cls b!"[^\\r\\n]" true [13, 10] []),
                          .opt (
                            .lit b!"\r"),
                          .choice [
                            .lit b!"\n",
                            .not (
                              .any)]])),
                    .action .whitespace (
                      .plus (
                        .cls b!"[ \\t\\r\\n]" false [32, 9, 13, 10] []))])),
              .labeled .eb (
                .ref .elseCond)])))])

/-- Rule `ifCond` (logstash_config.peg:371) as found in logstash_config.go. -/
def r_ifCond : Ex :=
  .action (.ifBlock .cond .bops .footerComment) (
    .seq [
      .lit b!"if",
      .action .str (
        .star (
          .choice [
            .action .comment (
              .plus (
                .seq [
                  .opt (
                    .action .whitespace (
                      .plus (
                        .cls b!"[ \\t\\r\\n]" false [32, 9, 13, 10] []))),
                  .lit b!"#",
                  .star (
                    .cls b!"[^\\r\\n]" true [13, 10] []),
                  .opt (
                    .lit b!"\r"),
                  .choice [
                    .lit b!"\n",
                    .not (
                      .any)]])),
            .action .whitespace (
              .plus (
                .cls b!"[ \\t\\r\\n]" false [32, 9, 13, 10] []))])),
      .state .warnComment,
      .labeled .cond (
        .ref .condition),
      .action .str (
        .star (
          .choice [
            .action .comment (
              .plus (
                .seq [
                  .opt (
                    .action .whitespace (
                      .plus (
                        .cls b!"[ \\t\\r\\n]" false [32, 9, 13, 10] []))),
                  .lit b!"#",
                  .star (
                    .cls b!"[^\\r\\n]" true [13, 10] []),
                  .opt (
                    .lit b!"\r"),
                  .choice [
                    .lit b!"\n",
                    .not (
                      .any)]])),
            .action .whitespace (
              .plus (
                .cls b!"[ \\t\\r\\n]" false [32, 9, 13, 10] []))])),
      .state .warnComment,
      .lit b!"{",
      .labeled .bops (
        .star (
          .action (.branchOrPluginComment .bop .comment) (
            .seq [
              .labeled .comment (
                .star (
                  .choice [
                    .action .comment (
                      .plus (
                        .seq [
                          .opt (
                            .action .whitespace (
                              .plus (
                                .cls b!"[ \\t\\r\\n]" false [32, 9, 13, 10] []))),
                          .lit b!"#",
                          .star (
                            .cls b!"[^\\r\\n]" true [13, 10] []),
                          .opt (
                            .lit b!"\r"),
                          .choice [
                            .lit b!"\n",
                            .not (
                              .any)]])),
                    .action .whitespace (
                      .plus (
                        .cls b!"[ \\t\\r\\n]" false [32, 9, 13, 10] []))])),
              .labeled .bop (
                .ref .branchOrPlugin)]))),
      .labeled .footerComment (
        .star (
          .choice [
            .action .comment (
              .plus (
                .seq [
                  .opt (
                    .action .whitespace (
                      .plus (
                        .cls b!"[ \\t\\r\\n]" false [32, 9, 13, 10] []))),
                  .lit b!"#",
                  .star (
                    .cls b!"[^\\r\\n]" true [13, 10] []),
                  .opt (
                    .lit b!"\r"),
                  .choice [
                    .lit b!"\n",
                    .not (
                      .any)]])),
            .action .whitespace (
              .plus (
                .cls b!"[ \\t\\r\\n]" false [32, 9, 13, 10] []))])),
      .choice [
        .lit b!"}",
        .andCode (.fatalError b!"expect closing curly bracket")]])

/-- Rule `elseIf` (logstash_config.peg:392) as found in logstash_config.go. -/
def r_elseIf : Ex :=
  .action (.elseIfBlock .cond .bops .footerComment) (
    .seq [
      .lit b!"else",
      .action .str (
        .star (
          .choice [
            .action .comment (
              .plus (
                .seq [
                  .opt (
                    .action .whitespace (
                      .plus (
                        .cls b!"[ \\t\\r\\n]" false [32, 9, 13, 10] []))),
                  .lit b!"#",
                  .star (
                    .cls b!"[^\\r\\n]" true [13, 10] []),
                  .opt (
                    .lit b!"\r"),
                  .choice [
                    .lit b!"\n",
                    .not (
                      .any)]])),
            .action .whitespace (
              .plus (
                .cls b!"[ \\t\\r\\n]" false [32, 9, 13, 10] []))])),
      .state .warnComment,
      .lit b!"if",
      .action .str (
        .star (
          .choice [
            .action .comment (
              .plus (
                .seq [
                  .opt (
                    .action .whitespace (
                      .plus (
                        .cls b!"[ \\t\\r\\n]" false [32, 9, 13, 10] []))),
                  .lit b!"#",
                  .star (
                    .cls b!"[^\\r\\n]" true [13, 10] []),
                  .opt (
                    .lit b!"\r"),
                  .choice [
                    .lit b!"\n",
                    .not (
                      .any)]])),
            .action .whitespace (
              .plus (
                .cls b!"[ \\t\\r\\n]" false [32, 9, 13, 10] []))])),
      .state .warnComment,
      .labeled .cond (
        .ref .condition),
      .action .str (
        .star (
          .choice [
            .action .comment (
              .plus (
                .seq [
                  .opt (
                    .action .whitespace (
                      .plus (
                        .cls b!"[ \\t\\r\\n]" false [32, 9, 13, 10] []))),
                  .lit b!"#",
                  .star (
                    .cls b!"[^\\r\\n]" true [13, 10] []),
                  .opt (
                    .lit b!"\r"),
                  .choice [
                    .lit b!"\n",
                    .not (
                      .any)]])),
            .action .whitespace (
              .plus (
                .cls b!"[ \\t\\r\\n]" false [32, 9, 13, 10] []))])),
      .state .warnComment,
      .lit b!"{",
      .labeled .bops (
        .star (
          .action (.branchOrPluginComment .bop .comment) (
            .seq [
              .labeled .comment (
                .star (
                  .choice [
                    .action .comment (
                      .plus (
                        .seq [
                          .opt (
                            .action .whitespace (
                              .plus (
                                .cls b!"[ \\t\\r\\n]" false [32, 9, 13, 10] []))),
                          .lit b!"#",
                          .star (
                            .cls b!"[^\\r\\n]" true [13, 10] []),
                          .opt (
                            .lit b!"\r"),
                          .choice [
                            .lit b!"\n",
                            .not (
                              .any)]])),
                    .action .whitespace (
                      .plus (
                        .cls b!"[ \\t\\r\\n]" false [32, 9, 13, 10] []))])),
              .labeled .bop (
                .ref .branchOrPlugin)]))),
      .labeled .footerComment (
        .star (
          .choice [
            .action .comment (
              .plus (
                .seq [
                  .opt (
                    .action .whitespace (
                      .plus (
                        .cls b!"[ \\t\\r\\n]" false [32, 9, 13, 10] []))),
                  .lit b!"#",
                  .star (
                    .cls b!"[^\\r\\n]" true [13, 10] []),
                  .opt (
                    .lit b!"\r"),
                  .choice [
                    .lit b!"\n",
                    .not (
                      .any)]])),
            .action .whitespace (
              .plus (
                .cls b!"[ \\t\\r\\n]" false [32, 9, 13, 10] []))])),
      .choice [
        .lit b!"}",
        .andCode (.fatalError b!"expect closing curly bracket")]])

/-- Rule `elseCond` (logstash_config.peg:413) as found in logstash_config.go. -/
def r_elseCond : Ex :=
  .action (.elseBlock .bops .footerComment) (
    .seq [
      .lit b!"else",
      .action .str (
        .star (
          .choice [
            .action .comment (
              .plus (
                .seq [
                  .opt (
                    .action .whitespace (
                      .plus (
                        .cls b!"[ \\t\\r\\n]" false [32, 9, 13, 10] []))),
                  .lit b!"#",
                  .star (
                    .cls b!"[^\\r\\n]" true [13, 10] []),
                  .opt (
                    .lit b!"\r"),
                  .choice [
                    .lit b!"\n",
                    .not (
                      .any)]])),
            .action .whitespace (
              .plus (
                .cls b!"[ \\t\\r\\n]" false [32, 9, 13, 10] []))])),
      .state .warnComment,
      .lit b!"{",
      .labeled .bops (
        .star (
          .action (.branchOrPluginComment .bop .comment) (
            .seq [
              .labeled .comment (
                .star (
                  .choice [
                    .action .comment (
                      .plus (
                        .seq [
                          .opt (
                            .action .whitespace (
                              .plus (
                                .cls b!"[ \\t\\r\\n]" false [32, 9, 13, 10] []))),
                          .lit b!"#",
                          .star (
                            .cls b!"[^\\r\\n]" true [13, 10] []),
                          .opt (
                            .lit b!"\r"),
                          .choice [
                            .lit b!"\n",
                            .not (
                              .any)]])),
                    .action .whitespace (
                      .plus (
                        .cls b!"[ \\t\\r\\n]" false [32, 9, 13, 10] []))])),
              .labeled .bop (
                .ref .branchOrPlugin)]))),
      .labeled .footerComment (
        .star (
          .choice [
            .action .comment (
              .plus (
                .seq [
                  .opt (
                    .action .whitespace (
                      .plus (
                        .cls b!"[ \\t\\r\\n]" false [32, 9, 13, 10] []))),
                  .lit b!"#",
                  .star (
                    .cls b!"[^\\r\\n]" true [13, 10] []),
                  .opt (
                    .lit b!"\r"),
                  .choice [
                    .lit b!"\n",
                    .not (
                      .any)]])),
            .action .whitespace (
              .plus (
                .cls b!"[ \\t\\r\\n]" false [32, 9, 13, 10] []))])),
      .choice [
        .lit b!"}",
        .andCode (.fatalError b!"expect closing curly bracket")]])

/-- Rule `condition` (logstash_config.peg:431) as found in logstash_config.go. -/
def r_condition : Ex :=
  .action (.condition .cond .conds) (
    .seq [
      .labeled .cond (
        .ref .expression),
      .labeled .conds (
        .star (
          .action (.expression .bo .cond) (
            .seq [
              .action .str (
                .star (
                  .choice [
                    .action .comment (
                      .plus (
                        .seq [
                          .opt (
                            .action .whitespace (
                              .plus (
                                .cls b!"[ \\t\\r\\n]" false [32, 9, 13, 10] []))),
                          .lit b!"#",
                          .star (
                            .cls b!"[^\\r\\n]" true [13, 10] []),
                          .opt (
                            .lit b!"\r"),
                          .choice [
                            .lit b!"\n",
                            .not (
                              .any)]])),
                    .action .whitespace (
                      .plus (
                        .cls b!"[ \\t\\r\\n]" false [32, 9, 13, 10] []))])),
              .state .warnComment,
              .labeled .bo (
                .action .booleanOperator (
                  .choice [
                    .lit b!"and",
                    .lit b!"or",
                    .lit b!"xor",
                    .lit b!"nand",
                    .andCode (.pushError b!"expect boolean operator (and, or, xor, nand)")])),
              .action .str (
                .star (
                  .choice [
                    .action .comment (
                      .plus (
                        .seq [
                          .opt (
                            .action .whitespace (
                              .plus (
                                .cls b!"[ \\t\\r\\n]" false [32, 9, 13, 10] []))),
                          .lit b!"#",
                          .star (
                            .cls b!"[^\\r\\n]" true [13, 10] []),
                          .opt (
                            .lit b!"\r"),
                          .choice [
                            .lit b!"\n",
                            .not (
                              .any)]])),
                    .action .whitespace (
                      .plus (
                        .cls b!"[ \\t\\r\\n]" false [32, 9, 13, 10] []))])),
              .state .warnComment,
              .labeled .cond (
                .ref .expression)])))])

/-- Rule `expression` (logstash_config.peg:452) as found in logstash_config.go. -/
def r_expression : Ex :=
  .choice [
    .action (.conditionExpression .cond) (
      .seq [
        .lit b!"(",
        .action .str (
          .star (
            .choice [
              .action .comment (
                .plus (
                  .seq [
                    .opt (
                      .action .whitespace (
                        .plus (
                          .cls b!"[ \\t\\r\\n]" false [32, 9, 13, 10] []))),
                    .lit b!"#",
                    .star (
                      .cls b!"[^\\r\\n]" true [13, 10] []),
                    .opt (
                      .lit b!"\r"),
                    .choice [
                      .lit b!"\n",
                      .not (
                        .any)]])),
              .action .whitespace (
                .plus (
                  .cls b!"[ \\t\\r\\n]" false [32, 9, 13, 10] []))])),
        .state .warnComment,
        .labeled .cond (
          .ref .condition),
        .action .str (
          .star (
            .choice [
              .action .comment (
                .plus (
                  .seq [
                    .opt (
                      .action .whitespace (
                        .plus (
                          .cls b!"[ \\t\\r\\n]" false [32, 9, 13, 10] []))),
                    .lit b!"#",
                    .star (
                      .cls b!"[^\\r\\n]" true [13, 10] []),
                    .opt (
                      .lit b!"\r"),
                    .choice [
                      .lit b!"\n",
                      .not (
                        .any)]])),
              .action .whitespace (
                .plus (
                  .cls b!"[ \\t\\r\\n]" false [32, 9, 13, 10] []))])),
        .state .warnComment,
        .lit b!")"]),
    .ref .negativeExpression,
    .ref .inExpression,
    .ref .notInExpression,
    .ref .compareExpression,
    .ref .regexpExpression,
    .action (.rvalue .rv) (
      .labeled .rv (
        .ref .rvalue))]

/-- Rule `negativeExpression` (logstash_config.peg:477) as found in logstash_config.go. -/
def r_negativeExpression : Ex :=
  .choice [
    .action (.negativeExpression .cond) (
      .seq [
        .lit b!"!",
        .action .str (
          .star (
            .choice [
              .action .comment (
                .plus (
                  .seq [
                    .opt (
                      .action .whitespace (
                        .plus (
                          .cls b!"[ \\t\\r\\n]" false [32, 9, 13, 10] []))),
                    .lit b!"#",
                    .star (
                      .cls b!"[^\\r\\n]" true [13, 10] []),
                    .opt (
                      .lit b!"\r"),
                    .choice [
                      .lit b!"\n",
                      .not (
                        .any)]])),
              .action .whitespace (
                .plus (
                  .cls b!"[ \\t\\r\\n]" false [32, 9, 13, 10] []))])),
        .state .warnComment,
        .lit b!"(",
        .action .str (
          .star (
            .choice [
              .action .comment (
                .plus (
                  .seq [
                    .opt (
                      .action .whitespace (
                        .plus (
                          .cls b!"[ \\t\\r\\n]" false [32, 9, 13, 10] []))),
                    .lit b!"#",
                    .star (
                      .cls b!"[^\\r\\n]" true [13, 10] []),
                    .opt (
                      .lit b!"\r"),
                    .choice [
                      .lit b!"\n",
                      .not (
                        .any)]])),
              .action .whitespace (
                .plus (
                  .cls b!"[ \\t\\r\\n]" false [32, 9, 13, 10] []))])),
        .state .warnComment,
        .labeled .cond (
          .ref .condition),
        .action .str (
          .star (
            .choice [
              .action .comment (
                .plus (
                  .seq [
                    .opt (
                      .action .whitespace (
                        .plus (
                          .cls b!"[ \\t\\r\\n]" false [32, 9, 13, 10] []))),
                    .lit b!"#",
                    .star (
                      .cls b!"[^\\r\\n]" true [13, 10] []),
                    .opt (
                      .lit b!"\r"),
                    .choice [
                      .lit b!"\n",
                      .not (
                        .any)]])),
              .action .whitespace (
                .plus (
                  .cls b!"[ \\t\\r\\n]" false [32, 9, 13, 10] []))])),
        .state .warnComment,
        .choice [
          .lit b!")",
          .andCode (.fatalError b!"expect closing parenthesis")]]),
    .action (.negativeSelector .sel) (
      .seq [
        .lit b!"!",
        .action .str (
          .star (
            .choice [
              .action .comment (
                .plus (
                  .seq [
                    .opt (
                      .action .whitespace (
                        .plus (
                          .cls b!"[ \\t\\r\\n]" false [32, 9, 13, 10] []))),
                    .lit b!"#",
                    .star (
                      .cls b!"[^\\r\\n]" true [13, 10] []),
                    .opt (
                      .lit b!"\r"),
                    .choice [
                      .lit b!"\n",
                      .not (
                        .any)]])),
              .action .whitespace (
                .plus (
                  .cls b!"[ \\t\\r\\n]" false [32, 9, 13, 10] []))])),
        .state .warnComment,
        .labeled .sel (
          .action (.selector .ses) (
            .labeled .ses (
              .plus (
                .action .selectorElement (
                  .seq [
                    .lit b!"[",
                    .plus (
                      .cls b!"[^][,]" true [93, 91, 44] []),
                    .choice [
                      .lit b!"]",
                      .andCode (.pushError b!"expect closing square bracket")]])))))])]

/-- Rule `inExpression` (logstash_config.peg:500) as found in logstash_config.go. -/
def r_inExpression : Ex :=
  .action (.inExpression .lv .rv) (
    .seq [
      .labeled .lv (
        .ref .rvalue),
      .action .str (
        .star (
          .choice [
            .action .comment (
              .plus (
                .seq [
                  .opt (
                    .action .whitespace (
                      .plus (
                        .cls b!"[ \\t\\r\\n]" false [32, 9, 13, 10] []))),
                  .lit b!"#",
                  .star (
                    .cls b!"[^\\r\\n]" true [13, 10] []),
                  .opt (
                    .lit b!"\r"),
                  .choice [
                    .lit b!"\n",
                    .not (
                      .any)]])),
            .action .whitespace (
              .plus (
                .cls b!"[ \\t\\r\\n]" false [32, 9, 13, 10] []))])),
      .state .warnComment,
      .choice [
        .lit b!"in",
        .andCode (.pushError b!"expect in operator (in)")],
      .action .str (
        .star (
          .choice [
            .action .comment (
              .plus (
                .seq [
                  .opt (
                    .action .whitespace (
                      .plus (
                        .cls b!"[ \\t\\r\\n]" false [32, 9, 13, 10] []))),
                  .lit b!"#",
                  .star (
                    .cls b!"[^\\r\\n]" true [13, 10] []),
                  .opt (
                    .lit b!"\r"),
                  .choice [
                    .lit b!"\n",
                    .not (
                      .any)]])),
            .action .whitespace (
              .plus (
                .cls b!"[ \\t\\r\\n]" false [32, 9, 13, 10] []))])),
      .state .warnComment,
      .labeled .rv (
        .ref .rvalue)])

/-- Rule `notInExpression` (logstash_config.peg:510) as found in logstash_config.go. -/
def r_notInExpression : Ex :=
  .action (.notInExpression .lv .rv) (
    .seq [
      .labeled .lv (
        .ref .rvalue),
      .action .str (
        .star (
          .choice [
            .action .comment (
              .plus (
                .seq [
                  .opt (
                    .action .whitespace (
                      .plus (
                        .cls b!"[ \\t\\r\\n]" false [32, 9, 13, 10] []))),
                  .lit b!"#",
                  .star (
                    .cls b!"[^\\r\\n]" true [13, 10] []),
                  .opt (
                    .lit b!"\r"),
                  .choice [
                    .lit b!"\n",
                    .not (
                      .any)]])),
            .action .whitespace (
              .plus (
                .cls b!"[ \\t\\r\\n]" false [32, 9, 13, 10] []))])),
      .state .warnComment,
      .choice [
        .seq [
          .lit b!"not ",
          .action .str (
            .star (
              .choice [
                .action .comment (
                  .plus (
                    .seq [
                      .opt (
                        .action .whitespace (
                          .plus (
                            .cls b!"[ \\t\\r\\n]" false [32, 9, 13, 10] []))),
                      .lit b!"#",
                      .star (
                        .cls b!"[^\\r\\n]" true [13, 10] []),
                      .opt (
                        .lit b!"\r"),
                      .choice [
                        .lit b!"\n",
                        .not (
                          .any)]])),
                .action .whitespace (
                  .plus (
                    .cls b!"[ \\t\\r\\n]" false [32, 9, 13, 10] []))])),
          .state .warnComment,
          .lit b!"in"],
        .andCode (.pushError b!"expect not in operator (not in)")],
      .action .str (
        .star (
          .choice [
            .action .comment (
              .plus (
                .seq [
                  .opt (
                    .action .whitespace (
                      .plus (
                        .cls b!"[ \\t\\r\\n]" false [32, 9, 13, 10] []))),
                  .lit b!"#",
                  .star (
                    .cls b!"[^\\r\\n]" true [13, 10] []),
                  .opt (
                    .lit b!"\r"),
                  .choice [
                    .lit b!"\n",
                    .not (
                      .any)]])),
            .action .whitespace (
              .plus (
                .cls b!"[ \\t\\r\\n]" false [32, 9, 13, 10] []))])),
      .state .warnComment,
      .labeled .rv (
        .ref .rvalue)])

/-- Rule `rvalue` (logstash_config.peg:540) as found in logstash_config.go. -/
def r_rvalue : Ex :=
  .choice [
    .action (.ret .str) (
      .labeled .str (
        .choice [
          .action (.string .doubleQuoted) (
            .labeled .str (
              .action .enclosedValue (
                .seq [
                  .lit b!"\"",
                  .star (
                    .choice [
                      .lit b!"\\\"",
                      .seq [
                        .not (
                          .lit b!"\""),
                        .any]]),
                  .choice [
                    .lit b!"\"",
                    .andCode (.fatalError b!"expect closing double quotes (\")")]]))),
          .action (.string .singleQuoted) (
            .labeled .str (
              .action .enclosedValue (
                .seq [
                  .lit b!"'",
                  .star (
                    .choice [
                      .lit b!"\\'",
                      .seq [
                        .not (
                          .lit b!"'"),
                        .any]]),
                  .choice [
                    .lit b!"'",
                    .andCode (.fatalError b!"expect closing single quote (')")]])))])),
    .action .number (
      .seq [
        .opt (
          .lit b!"-"),
        .plus (
          .cls b!"[0-9]" false [] [(48, 57)]),
        .opt (
          .seq [
            .lit b!".",
            .star (
              .cls b!"[0-9]" false [] [(48, 57)])])]),
    .action (.selector .ses) (
      .labeled .ses (
        .plus (
          .action .selectorElement (
            .seq [
              .lit b!"[",
              .plus (
                .cls b!"[^][,]" true [93, 91, 44] []),
              .choice [
                .lit b!"]",
                .andCode (.pushError b!"expect closing square bracket")]])))),
    .ref .array,
    .action .regexp (
      .seq [
        .lit b!"/",
        .star (
          .choice [
            .lit b!"\\/",
            .seq [
              .not (
                .lit b!"/"),
              .any]]),
        .choice [
          .lit b!"/",
          .andCode (.fatalError b!"expect closing slash (/) for regexp")]]),
    .andCode (.pushError b!"invalid value for expression")]

/-- Rule `compareExpression` (logstash_config.peg:575) as found in logstash_config.go. -/
def r_compareExpression : Ex :=
  .action (.compareExpression .lv .co .rv) (
    .seq [
      .labeled .lv (
        .ref .rvalue),
      .action .str (
        .star (
          .choice [
            .action .comment (
              .plus (
                .seq [
                  .opt (
                    .action .whitespace (
                      .plus (
                        .cls b!"[ \\t\\r\\n]" false [32, 9, 13, 10] []))),
                  .lit b!"#",
                  .star (
                    .cls b!"[^\\r\\n]" true [13, 10] []),
                  .opt (
                    .lit b!"\r"),
                  .choice [
                    .lit b!"\n",
                    .not (
                      .any)]])),
            .action .whitespace (
              .plus (
                .cls b!"[ \\t\\r\\n]" false [32, 9, 13, 10] []))])),
      .state .warnComment,
      .labeled .co (
        .action .compareOperator (
          .choice [
            .lit b!"==",
            .lit b!"!=",
            .lit b!"<=",
            .lit b!">=",
            .cls b!"[<>]" false [60, 62] [],
            .andCode (.pushError b!"expect compare operator (==, !=, <=, >=, <, >)")])),
      .action .str (
        .star (
          .choice [
            .action .comment (
              .plus (
                .seq [
                  .opt (
                    .action .whitespace (
                      .plus (
                        .cls b!"[ \\t\\r\\n]" false [32, 9, 13, 10] []))),
                  .lit b!"#",
                  .star (
                    .cls b!"[^\\r\\n]" true [13, 10] []),
                  .opt (
                    .lit b!"\r"),
                  .choice [
                    .lit b!"\n",
                    .not (
                      .any)]])),
            .action .whitespace (
              .plus (
                .cls b!"[ \\t\\r\\n]" false [32, 9, 13, 10] []))])),
      .state .warnComment,
      .labeled .rv (
        .ref .rvalue)])

/-- Rule `regexpExpression` (logstash_config.peg:597) as found in logstash_config.go. -/
def r_regexpExpression : Ex :=
  .action (.regexpExpression .lv .ro .rv) (
    .seq [
      .labeled .lv (
        .ref .rvalue),
      .action .str (
        .star (
          .choice [
            .action .comment (
              .plus (
                .seq [
                  .opt (
                    .action .whitespace (
                      .plus (
                        .cls b!"[ \\t\\r\\n]" false [32, 9, 13, 10] []))),
                  .lit b!"#",
                  .star (
                    .cls b!"[^\\r\\n]" true [13, 10] []),
                  .opt (
                    .lit b!"\r"),
                  .choice [
                    .lit b!"\n",
                    .not (
                      .any)]])),
            .action .whitespace (
              .plus (
                .cls b!"[ \\t\\r\\n]" false [32, 9, 13, 10] []))])),
      .state .warnComment,
      .labeled .ro (
        .action .regexpOperator (
          .choice [
            .lit b!"=~",
            .lit b!"!~",
            .andCode (.pushError b!"expect regexp comparison operator (=~, !~)")])),
      .action .str (
        .star (
          .choice [
            .action .comment (
              .plus (
                .seq [
                  .opt (
                    .action .whitespace (
                      .plus (
                        .cls b!"[ \\t\\r\\n]" false [32, 9, 13, 10] []))),
                  .lit b!"#",
                  .star (
                    .cls b!"[^\\r\\n]" true [13, 10] []),
                  .opt (
                    .lit b!"\r"),
                  .choice [
                    .lit b!"\n",
                    .not (
                      .any)]])),
            .action .whitespace (
              .plus (
                .cls b!"[ \\t\\r\\n]" false [32, 9, 13, 10] []))])),
      .state .warnComment,
      .labeled .rv (
        .choice [
          .action (.ret .str) (
            .labeled .str (
              .choice [
                .action (.string .doubleQuoted) (
                  .labeled .str (
                    .action .enclosedValue (
                      .seq [
                        .lit b!"\"",
                        .star (
                          .choice [
                            .lit b!"\\\"",
                            .seq [
                              .not (
                                .lit b!"\""),
                              .any]]),
                        .choice [
                          .lit b!"\"",
                          .andCode (.fatalError b!"expect closing double quotes (\")")]]))),
                .action (.string .singleQuoted) (
                  .labeled .str (
                    .action .enclosedValue (
                      .seq [
                        .lit b!"'",
                        .star (
                          .choice [
                            .lit b!"\\'",
                            .seq [
                              .not (
                                .lit b!"'"),
                              .any]]),
                        .choice [
                          .lit b!"'",
                          .andCode (.fatalError b!"expect closing single quote (')")]])))])),
          .action .regexp (
            .seq [
              .lit b!"/",
              .star (
                .choice [
                  .lit b!"\\/",
                  .seq [
                    .not (
                      .lit b!"/"),
                    .any]]),
              .choice [
                .lit b!"/",
                .andCode (.fatalError b!"expect closing slash (/) for regexp")]])])])

/-- The grammar `g` (logstash_config.go:22-8060). -/
def gram : Gram
  | .init => r_init
  | .config => r_config
  | .pluginSection => r_pluginSection
  | .branchOrPlugin => r_branchOrPlugin
  | .plugin => r_plugin
  | .attribute => r_attribute
  | .value => r_value
  | .array => r_array
  | .hash => r_hash
  | .hashentries => r_hashentries
  | .hashentry => r_hashentry
  | .branch => r_branch
  | .ifCond => r_ifCond
  | .elseIf => r_elseIf
  | .elseCond => r_elseCond
  | .condition => r_condition
  | .expression => r_expression
  | .negativeExpression => r_negativeExpression
  | .inExpression => r_inExpression
  | .notInExpression => r_notInExpression
  | .rvalue => r_rvalue
  | .compareExpression => r_compareExpression
  | .regexpExpression => r_regexpExpression

/-- The rules in the order of `g.rules`; the first is the entry point. -/
def ruleOrder : List Rule := [.init, .config, .pluginSection, .branchOrPlugin, .plugin, .attribute, .value, .array, .hash, .hashentries, .hashentry, .branch, .ifCond, .elseIf, .elseCond, .condition, .expression, .negativeExpression, .inExpression, .notInExpression, .rvalue, .compareExpression, .regexpExpression]

end Verif.Go
