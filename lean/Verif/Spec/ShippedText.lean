import Verif.Model.Basic

/-!
# The text of `tool/syntaxis/syntaxis2.json`

Generated by a script from the file, which `main.rs` opens (`main.rs:93`).
-/

namespace Syntaxis.Artefacts

/-- `syntaxis2.json:1-40` -/
def syntaxis2Json1 : Str :=
  List.flatten [
    chars! "{\n",
    chars! "  \"rule_index\": 0,\n",
    chars! "  \"rule_name\": \"rule_list\",\n",
    chars! "  \"children\": [\n",
    chars! "    {\n",
    chars! "      \"rule_index\": 1,\n",
    chars! "      \"rule_name\": \"parser_rule\",\n",
    chars! "      \"children\": [\n",
    chars! "        {\n",
    chars! "          \"token_type\": 7,\n",
    chars! "          \"token_name\": \"RULE_REF\",\n",
    chars! "          \"text\": \"rule_list\"\n",
    chars! "        },\n",
    chars! "        {\n",
    chars! "          \"token_type\": 8,\n",
    chars! "          \"token_name\": \"COLON\",\n",
    chars! "          \"text\": \":\"\n",
    chars! "        },\n",
    chars! "        {\n",
    chars! "          \"rule_index\": 2,\n",
    chars! "          \"rule_name\": \"block\",\n",
    chars! "          \"children\": [\n",
    chars! "            {\n",
    chars! "              \"rule_index\": 3,\n",
    chars! "              \"rule_name\": \"alternative\",\n",
    chars! "              \"children\": [\n",
    chars! "                {\n",
    chars! "                  \"rule_index\": 5,\n",
    chars! "                  \"rule_name\": \"element\",\n",
    chars! "                  \"children\": [\n",
    chars! "                    {\n",
    chars! "                      \"token_type\": 16,\n",
    chars! "                      \"token_name\": \"LPAREN\",\n",
    chars! "                      \"text\": \"(\"\n",
    chars! "                    },\n",
    chars! "                    {\n",
    chars! "                      \"rule_index\": 2,\n",
    chars! "                      \"rule_name\": \"block\",\n",
    chars! "                      \"children\": [\n",
    chars! "                        {\n"]

/-- `syntaxis2.json:41-80` -/
def syntaxis2Json2 : Str :=
  List.flatten [
    chars! "                          \"rule_index\": 3,\n",
    chars! "                          \"rule_name\": \"alternative\",\n",
    chars! "                          \"children\": [\n",
    chars! "                            {\n",
    chars! "                              \"rule_index\": 5,\n",
    chars! "                              \"rule_name\": \"element\",\n",
    chars! "                              \"children\": [\n",
    chars! "                                {\n",
    chars! "                                  \"token_type\": 7,\n",
    chars! "                                  \"token_name\": \"RULE_REF\",\n",
    chars! "                                  \"text\": \"parser_rule\"\n",
    chars! "                                }\n",
    chars! "                              ]\n",
    chars! "                            }\n",
    chars! "                          ]\n",
    chars! "                        },\n",
    chars! "                        {\n",
    chars! "                          \"token_type\": 9,\n",
    chars! "                          \"token_name\": \"OR\",\n",
    chars! "                          \"text\": \"|\"\n",
    chars! "                        },\n",
    chars! "                        {\n",
    chars! "                          \"rule_index\": 3,\n",
    chars! "                          \"rule_name\": \"alternative\",\n",
    chars! "                          \"children\": [\n",
    chars! "                            {\n",
    chars! "                              \"rule_index\": 5,\n",
    chars! "                              \"rule_name\": \"element\",\n",
    chars! "                              \"children\": [\n",
    chars! "                                {\n",
    chars! "                                  \"token_type\": 7,\n",
    chars! "                                  \"token_name\": \"RULE_REF\",\n",
    chars! "                                  \"text\": \"lexer_rule\"\n",
    chars! "                                }\n",
    chars! "                              ]\n",
    chars! "                            }\n",
    chars! "                          ]\n",
    chars! "                        }\n",
    chars! "                      ]\n",
    chars! "                    },\n"]

/-- `syntaxis2.json:81-120` -/
def syntaxis2Json3 : Str :=
  List.flatten [
    chars! "                    {\n",
    chars! "                      \"token_type\": 17,\n",
    chars! "                      \"token_name\": \"RPAREN\",\n",
    chars! "                      \"text\": \")\"\n",
    chars! "                    },\n",
    chars! "                    {\n",
    chars! "                      \"rule_index\": 6,\n",
    chars! "                      \"rule_name\": \"ebnf_suffix\",\n",
    chars! "                      \"children\": [\n",
    chars! "                        {\n",
    chars! "                          \"token_type\": 11,\n",
    chars! "                          \"token_name\": \"STAR\",\n",
    chars! "                          \"text\": \"*\"\n",
    chars! "                        }\n",
    chars! "                      ]\n",
    chars! "                    }\n",
    chars! "                  ]\n",
    chars! "                }\n",
    chars! "              ]\n",
    chars! "            }\n",
    chars! "          ]\n",
    chars! "        },\n",
    chars! "        {\n",
    chars! "          \"token_type\": 10,\n",
    chars! "          \"token_name\": \"SEMI\",\n",
    chars! "          \"text\": \";\"\n",
    chars! "        }\n",
    chars! "      ]\n",
    chars! "    },\n",
    chars! "    {\n",
    chars! "      \"rule_index\": 1,\n",
    chars! "      \"rule_name\": \"parser_rule\",\n",
    chars! "      \"children\": [\n",
    chars! "        {\n",
    chars! "          \"token_type\": 7,\n",
    chars! "          \"token_name\": \"RULE_REF\",\n",
    chars! "          \"text\": \"parser_rule\"\n",
    chars! "        },\n",
    chars! "        {\n",
    chars! "          \"token_type\": 8,\n"]

/-- `syntaxis2.json:121-160` -/
def syntaxis2Json4 : Str :=
  List.flatten [
    chars! "          \"token_name\": \"COLON\",\n",
    chars! "          \"text\": \":\"\n",
    chars! "        },\n",
    chars! "        {\n",
    chars! "          \"rule_index\": 2,\n",
    chars! "          \"rule_name\": \"block\",\n",
    chars! "          \"children\": [\n",
    chars! "            {\n",
    chars! "              \"rule_index\": 3,\n",
    chars! "              \"rule_name\": \"alternative\",\n",
    chars! "              \"children\": [\n",
    chars! "                {\n",
    chars! "                  \"rule_index\": 5,\n",
    chars! "                  \"rule_name\": \"element\",\n",
    chars! "                  \"children\": [\n",
    chars! "                    {\n",
    chars! "                      \"token_type\": 6,\n",
    chars! "                      \"token_name\": \"TOKEN_REF\",\n",
    chars! "                      \"text\": \"RULE_REF\"\n",
    chars! "                    }\n",
    chars! "                  ]\n",
    chars! "                },\n",
    chars! "                {\n",
    chars! "                  \"rule_index\": 5,\n",
    chars! "                  \"rule_name\": \"element\",\n",
    chars! "                  \"children\": [\n",
    chars! "                    {\n",
    chars! "                      \"token_type\": 6,\n",
    chars! "                      \"token_name\": \"TOKEN_REF\",\n",
    chars! "                      \"text\": \"COLON\"\n",
    chars! "                    }\n",
    chars! "                  ]\n",
    chars! "                },\n",
    chars! "                {\n",
    chars! "                  \"rule_index\": 5,\n",
    chars! "                  \"rule_name\": \"element\",\n",
    chars! "                  \"children\": [\n",
    chars! "                    {\n",
    chars! "                      \"token_type\": 7,\n",
    chars! "                      \"token_name\": \"RULE_REF\",\n"]

/-- `syntaxis2.json:161-200` -/
def syntaxis2Json5 : Str :=
  List.flatten [
    chars! "                      \"text\": \"block\"\n",
    chars! "                    }\n",
    chars! "                  ]\n",
    chars! "                },\n",
    chars! "                {\n",
    chars! "                  \"rule_index\": 5,\n",
    chars! "                  \"rule_name\": \"element\",\n",
    chars! "                  \"children\": [\n",
    chars! "                    {\n",
    chars! "                      \"token_type\": 6,\n",
    chars! "                      \"token_name\": \"TOKEN_REF\",\n",
    chars! "                      \"text\": \"SEMI\"\n",
    chars! "                    }\n",
    chars! "                  ]\n",
    chars! "                }\n",
    chars! "              ]\n",
    chars! "            }\n",
    chars! "          ]\n",
    chars! "        },\n",
    chars! "        {\n",
    chars! "          \"token_type\": 10,\n",
    chars! "          \"token_name\": \"SEMI\",\n",
    chars! "          \"text\": \";\"\n",
    chars! "        }\n",
    chars! "      ]\n",
    chars! "    },\n",
    chars! "    {\n",
    chars! "      \"rule_index\": 1,\n",
    chars! "      \"rule_name\": \"parser_rule\",\n",
    chars! "      \"children\": [\n",
    chars! "        {\n",
    chars! "          \"token_type\": 7,\n",
    chars! "          \"token_name\": \"RULE_REF\",\n",
    chars! "          \"text\": \"block\"\n",
    chars! "        },\n",
    chars! "        {\n",
    chars! "          \"token_type\": 8,\n",
    chars! "          \"token_name\": \"COLON\",\n",
    chars! "          \"text\": \":\"\n",
    chars! "        },\n"]

/-- `syntaxis2.json:201-240` -/
def syntaxis2Json6 : Str :=
  List.flatten [
    chars! "        {\n",
    chars! "          \"rule_index\": 2,\n",
    chars! "          \"rule_name\": \"block\",\n",
    chars! "          \"children\": [\n",
    chars! "            {\n",
    chars! "              \"rule_index\": 3,\n",
    chars! "              \"rule_name\": \"alternative\",\n",
    chars! "              \"children\": [\n",
    chars! "                {\n",
    chars! "                  \"rule_index\": 5,\n",
    chars! "                  \"rule_name\": \"element\",\n",
    chars! "                  \"children\": [\n",
    chars! "                    {\n",
    chars! "                      \"token_type\": 7,\n",
    chars! "                      \"token_name\": \"RULE_REF\",\n",
    chars! "                      \"text\": \"alternative\"\n",
    chars! "                    }\n",
    chars! "                  ]\n",
    chars! "                },\n",
    chars! "                {\n",
    chars! "                  \"rule_index\": 5,\n",
    chars! "                  \"rule_name\": \"element\",\n",
    chars! "                  \"children\": [\n",
    chars! "                    {\n",
    chars! "                      \"token_type\": 16,\n",
    chars! "                      \"token_name\": \"LPAREN\",\n",
    chars! "                      \"text\": \"(\"\n",
    chars! "                    },\n",
    chars! "                    {\n",
    chars! "                      \"rule_index\": 2,\n",
    chars! "                      \"rule_name\": \"block\",\n",
    chars! "                      \"children\": [\n",
    chars! "                        {\n",
    chars! "                          \"rule_index\": 3,\n",
    chars! "                          \"rule_name\": \"alternative\",\n",
    chars! "                          \"children\": [\n",
    chars! "                            {\n",
    chars! "                              \"rule_index\": 5,\n",
    chars! "                              \"rule_name\": \"element\",\n",
    chars! "                              \"children\": [\n"]

/-- `syntaxis2.json:241-280` -/
def syntaxis2Json7 : Str :=
  List.flatten [
    chars! "                                {\n",
    chars! "                                  \"token_type\": 6,\n",
    chars! "                                  \"token_name\": \"TOKEN_REF\",\n",
    chars! "                                  \"text\": \"OR\"\n",
    chars! "                                }\n",
    chars! "                              ]\n",
    chars! "                            },\n",
    chars! "                            {\n",
    chars! "                              \"rule_index\": 5,\n",
    chars! "                              \"rule_name\": \"element\",\n",
    chars! "                              \"children\": [\n",
    chars! "                                {\n",
    chars! "                                  \"token_type\": 7,\n",
    chars! "                                  \"token_name\": \"RULE_REF\",\n",
    chars! "                                  \"text\": \"alternative\"\n",
    chars! "                                }\n",
    chars! "                              ]\n",
    chars! "                            }\n",
    chars! "                          ]\n",
    chars! "                        }\n",
    chars! "                      ]\n",
    chars! "                    },\n",
    chars! "                    {\n",
    chars! "                      \"token_type\": 17,\n",
    chars! "                      \"token_name\": \"RPAREN\",\n",
    chars! "                      \"text\": \")\"\n",
    chars! "                    },\n",
    chars! "                    {\n",
    chars! "                      \"rule_index\": 6,\n",
    chars! "                      \"rule_name\": \"ebnf_suffix\",\n",
    chars! "                      \"children\": [\n",
    chars! "                        {\n",
    chars! "                          \"token_type\": 11,\n",
    chars! "                          \"token_name\": \"STAR\",\n",
    chars! "                          \"text\": \"*\"\n",
    chars! "                        }\n",
    chars! "                      ]\n",
    chars! "                    }\n",
    chars! "                  ]\n",
    chars! "                }\n"]

/-- `syntaxis2.json:281-320` -/
def syntaxis2Json8 : Str :=
  List.flatten [
    chars! "              ]\n",
    chars! "            }\n",
    chars! "          ]\n",
    chars! "        },\n",
    chars! "        {\n",
    chars! "          \"token_type\": 10,\n",
    chars! "          \"token_name\": \"SEMI\",\n",
    chars! "          \"text\": \";\"\n",
    chars! "        }\n",
    chars! "      ]\n",
    chars! "    },\n",
    chars! "    {\n",
    chars! "      \"rule_index\": 1,\n",
    chars! "      \"rule_name\": \"parser_rule\",\n",
    chars! "      \"children\": [\n",
    chars! "        {\n",
    chars! "          \"token_type\": 7,\n",
    chars! "          \"token_name\": \"RULE_REF\",\n",
    chars! "          \"text\": \"alternative\"\n",
    chars! "        },\n",
    chars! "        {\n",
    chars! "          \"token_type\": 8,\n",
    chars! "          \"token_name\": \"COLON\",\n",
    chars! "          \"text\": \":\"\n",
    chars! "        },\n",
    chars! "        {\n",
    chars! "          \"rule_index\": 2,\n",
    chars! "          \"rule_name\": \"block\",\n",
    chars! "          \"children\": [\n",
    chars! "            {\n",
    chars! "              \"rule_index\": 3,\n",
    chars! "              \"rule_name\": \"alternative\",\n",
    chars! "              \"children\": [\n",
    chars! "                {\n",
    chars! "                  \"rule_index\": 5,\n",
    chars! "                  \"rule_name\": \"element\",\n",
    chars! "                  \"children\": [\n",
    chars! "                    {\n",
    chars! "                      \"token_type\": 7,\n",
    chars! "                      \"token_name\": \"RULE_REF\",\n"]

/-- `syntaxis2.json:321-360` -/
def syntaxis2Json9 : Str :=
  List.flatten [
    chars! "                      \"text\": \"element\"\n",
    chars! "                    }\n",
    chars! "                  ]\n",
    chars! "                },\n",
    chars! "                {\n",
    chars! "                  \"rule_index\": 5,\n",
    chars! "                  \"rule_name\": \"element\",\n",
    chars! "                  \"children\": [\n",
    chars! "                    {\n",
    chars! "                      \"token_type\": 7,\n",
    chars! "                      \"token_name\": \"RULE_REF\",\n",
    chars! "                      \"text\": \"element\"\n",
    chars! "                    },\n",
    chars! "                    {\n",
    chars! "                      \"rule_index\": 6,\n",
    chars! "                      \"rule_name\": \"ebnf_suffix\",\n",
    chars! "                      \"children\": [\n",
    chars! "                        {\n",
    chars! "                          \"token_type\": 11,\n",
    chars! "                          \"token_name\": \"STAR\",\n",
    chars! "                          \"text\": \"*\"\n",
    chars! "                        }\n",
    chars! "                      ]\n",
    chars! "                    }\n",
    chars! "                  ]\n",
    chars! "                }\n",
    chars! "              ]\n",
    chars! "            },\n",
    chars! "            {\n",
    chars! "              \"token_type\": 9,\n",
    chars! "              \"token_name\": \"OR\",\n",
    chars! "              \"text\": \"|\"\n",
    chars! "            },\n",
    chars! "            {\n",
    chars! "              \"rule_index\": 3,\n",
    chars! "              \"rule_name\": \"alternative\",\n",
    chars! "              \"children\": [\n",
    chars! "                {\n",
    chars! "                  \"rule_index\": 5,\n",
    chars! "                  \"rule_name\": \"element\",\n"]

/-- `syntaxis2.json:361-400` -/
def syntaxis2Json10 : Str :=
  List.flatten [
    chars! "                  \"children\": [\n",
    chars! "                    {\n",
    chars! "                      \"token_type\": 7,\n",
    chars! "                      \"token_name\": \"RULE_REF\",\n",
    chars! "                      \"text\": \"epsilon\"\n",
    chars! "                    }\n",
    chars! "                  ]\n",
    chars! "                }\n",
    chars! "              ]\n",
    chars! "            }\n",
    chars! "          ]\n",
    chars! "        },\n",
    chars! "        {\n",
    chars! "          \"token_type\": 10,\n",
    chars! "          \"token_name\": \"SEMI\",\n",
    chars! "          \"text\": \";\"\n",
    chars! "        }\n",
    chars! "      ]\n",
    chars! "    },\n",
    chars! "    {\n",
    chars! "      \"rule_index\": 1,\n",
    chars! "      \"rule_name\": \"parser_rule\",\n",
    chars! "      \"children\": [\n",
    chars! "        {\n",
    chars! "          \"token_type\": 7,\n",
    chars! "          \"token_name\": \"RULE_REF\",\n",
    chars! "          \"text\": \"epsilon\"\n",
    chars! "        },\n",
    chars! "        {\n",
    chars! "          \"token_type\": 8,\n",
    chars! "          \"token_name\": \"COLON\",\n",
    chars! "          \"text\": \":\"\n",
    chars! "        },\n",
    chars! "        {\n",
    chars! "          \"rule_index\": 2,\n",
    chars! "          \"rule_name\": \"block\",\n",
    chars! "          \"children\": [\n",
    chars! "            {\n",
    chars! "              \"rule_index\": 3,\n",
    chars! "              \"rule_name\": \"alternative\",\n"]

/-- `syntaxis2.json:401-440` -/
def syntaxis2Json11 : Str :=
  List.flatten [
    chars! "              \"children\": [\n",
    chars! "                {\n",
    chars! "                  \"rule_index\": 5,\n",
    chars! "                  \"rule_name\": \"element\",\n",
    chars! "                  \"children\": [\n",
    chars! "                    {\n",
    chars! "                      \"token_type\": 6,\n",
    chars! "                      \"token_name\": \"TOKEN_REF\",\n",
    chars! "                      \"text\": \"EPSILON\"\n",
    chars! "                    }\n",
    chars! "                  ]\n",
    chars! "                }\n",
    chars! "              ]\n",
    chars! "            }\n",
    chars! "          ]\n",
    chars! "        },\n",
    chars! "        {\n",
    chars! "          \"token_type\": 10,\n",
    chars! "          \"token_name\": \"SEMI\",\n",
    chars! "          \"text\": \";\"\n",
    chars! "        }\n",
    chars! "      ]\n",
    chars! "    },\n",
    chars! "    {\n",
    chars! "      \"rule_index\": 1,\n",
    chars! "      \"rule_name\": \"parser_rule\",\n",
    chars! "      \"children\": [\n",
    chars! "        {\n",
    chars! "          \"token_type\": 7,\n",
    chars! "          \"token_name\": \"RULE_REF\",\n",
    chars! "          \"text\": \"element\"\n",
    chars! "        },\n",
    chars! "        {\n",
    chars! "          \"token_type\": 8,\n",
    chars! "          \"token_name\": \"COLON\",\n",
    chars! "          \"text\": \":\"\n",
    chars! "        },\n",
    chars! "        {\n",
    chars! "          \"rule_index\": 2,\n",
    chars! "          \"rule_name\": \"block\",\n"]

/-- `syntaxis2.json:441-480` -/
def syntaxis2Json12 : Str :=
  List.flatten [
    chars! "          \"children\": [\n",
    chars! "            {\n",
    chars! "              \"rule_index\": 3,\n",
    chars! "              \"rule_name\": \"alternative\",\n",
    chars! "              \"children\": [\n",
    chars! "                {\n",
    chars! "                  \"rule_index\": 5,\n",
    chars! "                  \"rule_name\": \"element\",\n",
    chars! "                  \"children\": [\n",
    chars! "                    {\n",
    chars! "                      \"token_type\": 16,\n",
    chars! "                      \"token_name\": \"LPAREN\",\n",
    chars! "                      \"text\": \"(\"\n",
    chars! "                    },\n",
    chars! "                    {\n",
    chars! "                      \"rule_index\": 2,\n",
    chars! "                      \"rule_name\": \"block\",\n",
    chars! "                      \"children\": [\n",
    chars! "                        {\n",
    chars! "                          \"rule_index\": 3,\n",
    chars! "                          \"rule_name\": \"alternative\",\n",
    chars! "                          \"children\": [\n",
    chars! "                            {\n",
    chars! "                              \"rule_index\": 5,\n",
    chars! "                              \"rule_name\": \"element\",\n",
    chars! "                              \"children\": [\n",
    chars! "                                {\n",
    chars! "                                  \"token_type\": 6,\n",
    chars! "                                  \"token_name\": \"TOKEN_REF\",\n",
    chars! "                                  \"text\": \"TOKEN_REF\"\n",
    chars! "                                }\n",
    chars! "                              ]\n",
    chars! "                            }\n",
    chars! "                          ]\n",
    chars! "                        },\n",
    chars! "                        {\n",
    chars! "                          \"token_type\": 9,\n",
    chars! "                          \"token_name\": \"OR\",\n",
    chars! "                          \"text\": \"|\"\n",
    chars! "                        },\n"]

/-- `syntaxis2.json:481-520` -/
def syntaxis2Json13 : Str :=
  List.flatten [
    chars! "                        {\n",
    chars! "                          \"rule_index\": 3,\n",
    chars! "                          \"rule_name\": \"alternative\",\n",
    chars! "                          \"children\": [\n",
    chars! "                            {\n",
    chars! "                              \"rule_index\": 5,\n",
    chars! "                              \"rule_name\": \"element\",\n",
    chars! "                              \"children\": [\n",
    chars! "                                {\n",
    chars! "                                  \"token_type\": 6,\n",
    chars! "                                  \"token_name\": \"TOKEN_REF\",\n",
    chars! "                                  \"text\": \"STRING_LITERAL\"\n",
    chars! "                                }\n",
    chars! "                              ]\n",
    chars! "                            }\n",
    chars! "                          ]\n",
    chars! "                        },\n",
    chars! "                        {\n",
    chars! "                          \"token_type\": 9,\n",
    chars! "                          \"token_name\": \"OR\",\n",
    chars! "                          \"text\": \"|\"\n",
    chars! "                        },\n",
    chars! "                        {\n",
    chars! "                          \"rule_index\": 3,\n",
    chars! "                          \"rule_name\": \"alternative\",\n",
    chars! "                          \"children\": [\n",
    chars! "                            {\n",
    chars! "                              \"rule_index\": 5,\n",
    chars! "                              \"rule_name\": \"element\",\n",
    chars! "                              \"children\": [\n",
    chars! "                                {\n",
    chars! "                                  \"token_type\": 6,\n",
    chars! "                                  \"token_name\": \"TOKEN_REF\",\n",
    chars! "                                  \"text\": \"RULE_REF\"\n",
    chars! "                                }\n",
    chars! "                              ]\n",
    chars! "                            }\n",
    chars! "                          ]\n",
    chars! "                        },\n",
    chars! "                        {\n"]

/-- `syntaxis2.json:521-560` -/
def syntaxis2Json14 : Str :=
  List.flatten [
    chars! "                          \"token_type\": 9,\n",
    chars! "                          \"token_name\": \"OR\",\n",
    chars! "                          \"text\": \"|\"\n",
    chars! "                        },\n",
    chars! "                        {\n",
    chars! "                          \"rule_index\": 3,\n",
    chars! "                          \"rule_name\": \"alternative\",\n",
    chars! "                          \"children\": [\n",
    chars! "                            {\n",
    chars! "                              \"rule_index\": 5,\n",
    chars! "                              \"rule_name\": \"element\",\n",
    chars! "                              \"children\": [\n",
    chars! "                                {\n",
    chars! "                                  \"token_type\": 6,\n",
    chars! "                                  \"token_name\": \"TOKEN_REF\",\n",
    chars! "                                  \"text\": \"LPAREN\"\n",
    chars! "                                }\n",
    chars! "                              ]\n",
    chars! "                            },\n",
    chars! "                            {\n",
    chars! "                              \"rule_index\": 5,\n",
    chars! "                              \"rule_name\": \"element\",\n",
    chars! "                              \"children\": [\n",
    chars! "                                {\n",
    chars! "                                  \"token_type\": 7,\n",
    chars! "                                  \"token_name\": \"RULE_REF\",\n",
    chars! "                                  \"text\": \"block\"\n",
    chars! "                                }\n",
    chars! "                              ]\n",
    chars! "                            },\n",
    chars! "                            {\n",
    chars! "                              \"rule_index\": 5,\n",
    chars! "                              \"rule_name\": \"element\",\n",
    chars! "                              \"children\": [\n",
    chars! "                                {\n",
    chars! "                                  \"token_type\": 6,\n",
    chars! "                                  \"token_name\": \"TOKEN_REF\",\n",
    chars! "                                  \"text\": \"RPAREN\"\n",
    chars! "                                }\n",
    chars! "                              ]\n"]

/-- `syntaxis2.json:561-600` -/
def syntaxis2Json15 : Str :=
  List.flatten [
    chars! "                            }\n",
    chars! "                          ]\n",
    chars! "                        }\n",
    chars! "                      ]\n",
    chars! "                    },\n",
    chars! "                    {\n",
    chars! "                      \"token_type\": 17,\n",
    chars! "                      \"token_name\": \"RPAREN\",\n",
    chars! "                      \"text\": \")\"\n",
    chars! "                    }\n",
    chars! "                  ]\n",
    chars! "                },\n",
    chars! "                {\n",
    chars! "                  \"rule_index\": 5,\n",
    chars! "                  \"rule_name\": \"element\",\n",
    chars! "                  \"children\": [\n",
    chars! "                    {\n",
    chars! "                      \"token_type\": 7,\n",
    chars! "                      \"token_name\": \"RULE_REF\",\n",
    chars! "                      \"text\": \"ebnf_suffix\"\n",
    chars! "                    },\n",
    chars! "                    {\n",
    chars! "                      \"rule_index\": 6,\n",
    chars! "                      \"rule_name\": \"ebnf_suffix\",\n",
    chars! "                      \"children\": [\n",
    chars! "                        {\n",
    chars! "                          \"token_type\": 13,\n",
    chars! "                          \"token_name\": \"QUESTION\",\n",
    chars! "                          \"text\": \"?\"\n",
    chars! "                        }\n",
    chars! "                      ]\n",
    chars! "                    }\n",
    chars! "                  ]\n",
    chars! "                }\n",
    chars! "              ]\n",
    chars! "            }\n",
    chars! "          ]\n",
    chars! "        },\n",
    chars! "        {\n",
    chars! "          \"token_type\": 10,\n"]

/-- `syntaxis2.json:601-640` -/
def syntaxis2Json16 : Str :=
  List.flatten [
    chars! "          \"token_name\": \"SEMI\",\n",
    chars! "          \"text\": \";\"\n",
    chars! "        }\n",
    chars! "      ]\n",
    chars! "    },\n",
    chars! "    {\n",
    chars! "      \"rule_index\": 1,\n",
    chars! "      \"rule_name\": \"parser_rule\",\n",
    chars! "      \"children\": [\n",
    chars! "        {\n",
    chars! "          \"token_type\": 7,\n",
    chars! "          \"token_name\": \"RULE_REF\",\n",
    chars! "          \"text\": \"ebnf_suffix\"\n",
    chars! "        },\n",
    chars! "        {\n",
    chars! "          \"token_type\": 8,\n",
    chars! "          \"token_name\": \"COLON\",\n",
    chars! "          \"text\": \":\"\n",
    chars! "        },\n",
    chars! "        {\n",
    chars! "          \"rule_index\": 2,\n",
    chars! "          \"rule_name\": \"block\",\n",
    chars! "          \"children\": [\n",
    chars! "            {\n",
    chars! "              \"rule_index\": 3,\n",
    chars! "              \"rule_name\": \"alternative\",\n",
    chars! "              \"children\": [\n",
    chars! "                {\n",
    chars! "                  \"rule_index\": 5,\n",
    chars! "                  \"rule_name\": \"element\",\n",
    chars! "                  \"children\": [\n",
    chars! "                    {\n",
    chars! "                      \"token_type\": 16,\n",
    chars! "                      \"token_name\": \"LPAREN\",\n",
    chars! "                      \"text\": \"(\"\n",
    chars! "                    },\n",
    chars! "                    {\n",
    chars! "                      \"rule_index\": 2,\n",
    chars! "                      \"rule_name\": \"block\",\n",
    chars! "                      \"children\": [\n"]

/-- `syntaxis2.json:641-680` -/
def syntaxis2Json17 : Str :=
  List.flatten [
    chars! "                        {\n",
    chars! "                          \"rule_index\": 3,\n",
    chars! "                          \"rule_name\": \"alternative\",\n",
    chars! "                          \"children\": [\n",
    chars! "                            {\n",
    chars! "                              \"rule_index\": 5,\n",
    chars! "                              \"rule_name\": \"element\",\n",
    chars! "                              \"children\": [\n",
    chars! "                                {\n",
    chars! "                                  \"token_type\": 6,\n",
    chars! "                                  \"token_name\": \"TOKEN_REF\",\n",
    chars! "                                  \"text\": \"STAR\"\n",
    chars! "                                }\n",
    chars! "                              ]\n",
    chars! "                            }\n",
    chars! "                          ]\n",
    chars! "                        },\n",
    chars! "                        {\n",
    chars! "                          \"token_type\": 9,\n",
    chars! "                          \"token_name\": \"OR\",\n",
    chars! "                          \"text\": \"|\"\n",
    chars! "                        },\n",
    chars! "                        {\n",
    chars! "                          \"rule_index\": 3,\n",
    chars! "                          \"rule_name\": \"alternative\",\n",
    chars! "                          \"children\": [\n",
    chars! "                            {\n",
    chars! "                              \"rule_index\": 5,\n",
    chars! "                              \"rule_name\": \"element\",\n",
    chars! "                              \"children\": [\n",
    chars! "                                {\n",
    chars! "                                  \"token_type\": 6,\n",
    chars! "                                  \"token_name\": \"TOKEN_REF\",\n",
    chars! "                                  \"text\": \"PLUS\"\n",
    chars! "                                }\n",
    chars! "                              ]\n",
    chars! "                            }\n",
    chars! "                          ]\n",
    chars! "                        },\n",
    chars! "                        {\n"]

/-- `syntaxis2.json:681-720` -/
def syntaxis2Json18 : Str :=
  List.flatten [
    chars! "                          \"token_type\": 9,\n",
    chars! "                          \"token_name\": \"OR\",\n",
    chars! "                          \"text\": \"|\"\n",
    chars! "                        },\n",
    chars! "                        {\n",
    chars! "                          \"rule_index\": 3,\n",
    chars! "                          \"rule_name\": \"alternative\",\n",
    chars! "                          \"children\": [\n",
    chars! "                            {\n",
    chars! "                              \"rule_index\": 5,\n",
    chars! "                              \"rule_name\": \"element\",\n",
    chars! "                              \"children\": [\n",
    chars! "                                {\n",
    chars! "                                  \"token_type\": 6,\n",
    chars! "                                  \"token_name\": \"TOKEN_REF\",\n",
    chars! "                                  \"text\": \"QUESTION\"\n",
    chars! "                                }\n",
    chars! "                              ]\n",
    chars! "                            }\n",
    chars! "                          ]\n",
    chars! "                        }\n",
    chars! "                      ]\n",
    chars! "                    },\n",
    chars! "                    {\n",
    chars! "                      \"token_type\": 17,\n",
    chars! "                      \"token_name\": \"RPAREN\",\n",
    chars! "                      \"text\": \")\"\n",
    chars! "                    }\n",
    chars! "                  ]\n",
    chars! "                },\n",
    chars! "                {\n",
    chars! "                  \"rule_index\": 5,\n",
    chars! "                  \"rule_name\": \"element\",\n",
    chars! "                  \"children\": [\n",
    chars! "                    {\n",
    chars! "                      \"token_type\": 6,\n",
    chars! "                      \"token_name\": \"TOKEN_REF\",\n",
    chars! "                      \"text\": \"QUESTION\"\n",
    chars! "                    },\n",
    chars! "                    {\n"]

/-- `syntaxis2.json:721-760` -/
def syntaxis2Json19 : Str :=
  List.flatten [
    chars! "                      \"rule_index\": 6,\n",
    chars! "                      \"rule_name\": \"ebnf_suffix\",\n",
    chars! "                      \"children\": [\n",
    chars! "                        {\n",
    chars! "                          \"token_type\": 13,\n",
    chars! "                          \"token_name\": \"QUESTION\",\n",
    chars! "                          \"text\": \"?\"\n",
    chars! "                        }\n",
    chars! "                      ]\n",
    chars! "                    }\n",
    chars! "                  ]\n",
    chars! "                }\n",
    chars! "              ]\n",
    chars! "            }\n",
    chars! "          ]\n",
    chars! "        },\n",
    chars! "        {\n",
    chars! "          \"token_type\": 10,\n",
    chars! "          \"token_name\": \"SEMI\",\n",
    chars! "          \"text\": \";\"\n",
    chars! "        }\n",
    chars! "      ]\n",
    chars! "    },\n",
    chars! "    {\n",
    chars! "      \"rule_index\": 1,\n",
    chars! "      \"rule_name\": \"parser_rule\",\n",
    chars! "      \"children\": [\n",
    chars! "        {\n",
    chars! "          \"token_type\": 7,\n",
    chars! "          \"token_name\": \"RULE_REF\",\n",
    chars! "          \"text\": \"lexer_rule\"\n",
    chars! "        },\n",
    chars! "        {\n",
    chars! "          \"token_type\": 8,\n",
    chars! "          \"token_name\": \"COLON\",\n",
    chars! "          \"text\": \":\"\n",
    chars! "        },\n",
    chars! "        {\n",
    chars! "          \"rule_index\": 2,\n",
    chars! "          \"rule_name\": \"block\",\n"]

/-- `syntaxis2.json:761-800` -/
def syntaxis2Json20 : Str :=
  List.flatten [
    chars! "          \"children\": [\n",
    chars! "            {\n",
    chars! "              \"rule_index\": 3,\n",
    chars! "              \"rule_name\": \"alternative\",\n",
    chars! "              \"children\": [\n",
    chars! "                {\n",
    chars! "                  \"rule_index\": 5,\n",
    chars! "                  \"rule_name\": \"element\",\n",
    chars! "                  \"children\": [\n",
    chars! "                    {\n",
    chars! "                      \"token_type\": 6,\n",
    chars! "                      \"token_name\": \"TOKEN_REF\",\n",
    chars! "                      \"text\": \"TOKEN_REF\"\n",
    chars! "                    }\n",
    chars! "                  ]\n",
    chars! "                },\n",
    chars! "                {\n",
    chars! "                  \"rule_index\": 5,\n",
    chars! "                  \"rule_name\": \"element\",\n",
    chars! "                  \"children\": [\n",
    chars! "                    {\n",
    chars! "                      \"token_type\": 6,\n",
    chars! "                      \"token_name\": \"TOKEN_REF\",\n",
    chars! "                      \"text\": \"COLON\"\n",
    chars! "                    }\n",
    chars! "                  ]\n",
    chars! "                },\n",
    chars! "                {\n",
    chars! "                  \"rule_index\": 5,\n",
    chars! "                  \"rule_name\": \"element\",\n",
    chars! "                  \"children\": [\n",
    chars! "                    {\n",
    chars! "                      \"token_type\": 7,\n",
    chars! "                      \"token_name\": \"RULE_REF\",\n",
    chars! "                      \"text\": \"regular\"\n",
    chars! "                    }\n",
    chars! "                  ]\n",
    chars! "                },\n",
    chars! "                {\n",
    chars! "                  \"rule_index\": 5,\n"]

/-- `syntaxis2.json:801-840` -/
def syntaxis2Json21 : Str :=
  List.flatten [
    chars! "                  \"rule_name\": \"element\",\n",
    chars! "                  \"children\": [\n",
    chars! "                    {\n",
    chars! "                      \"token_type\": 6,\n",
    chars! "                      \"token_name\": \"TOKEN_REF\",\n",
    chars! "                      \"text\": \"SEMI\"\n",
    chars! "                    }\n",
    chars! "                  ]\n",
    chars! "                }\n",
    chars! "              ]\n",
    chars! "            }\n",
    chars! "          ]\n",
    chars! "        },\n",
    chars! "        {\n",
    chars! "          \"token_type\": 10,\n",
    chars! "          \"token_name\": \"SEMI\",\n",
    chars! "          \"text\": \";\"\n",
    chars! "        }\n",
    chars! "      ]\n",
    chars! "    },\n",
    chars! "    {\n",
    chars! "      \"rule_index\": 1,\n",
    chars! "      \"rule_name\": \"parser_rule\",\n",
    chars! "      \"children\": [\n",
    chars! "        {\n",
    chars! "          \"token_type\": 7,\n",
    chars! "          \"token_name\": \"RULE_REF\",\n",
    chars! "          \"text\": \"regular\"\n",
    chars! "        },\n",
    chars! "        {\n",
    chars! "          \"token_type\": 8,\n",
    chars! "          \"token_name\": \"COLON\",\n",
    chars! "          \"text\": \":\"\n",
    chars! "        },\n",
    chars! "        {\n",
    chars! "          \"rule_index\": 2,\n",
    chars! "          \"rule_name\": \"block\",\n",
    chars! "          \"children\": [\n",
    chars! "            {\n",
    chars! "              \"rule_index\": 3,\n"]

/-- `syntaxis2.json:841-880` -/
def syntaxis2Json22 : Str :=
  List.flatten [
    chars! "              \"rule_name\": \"alternative\",\n",
    chars! "              \"children\": [\n",
    chars! "                {\n",
    chars! "                  \"rule_index\": 5,\n",
    chars! "                  \"rule_name\": \"element\",\n",
    chars! "                  \"children\": [\n",
    chars! "                    {\n",
    chars! "                      \"token_type\": 6,\n",
    chars! "                      \"token_name\": \"TOKEN_REF\",\n",
    chars! "                      \"text\": \"REGULAR_LITERAL\"\n",
    chars! "                    }\n",
    chars! "                  ]\n",
    chars! "                }\n",
    chars! "              ]\n",
    chars! "            }\n",
    chars! "          ]\n",
    chars! "        },\n",
    chars! "        {\n",
    chars! "          \"token_type\": 10,\n",
    chars! "          \"token_name\": \"SEMI\",\n",
    chars! "          \"text\": \";\"\n",
    chars! "        }\n",
    chars! "      ]\n",
    chars! "    },\n",
    chars! "    {\n",
    chars! "      \"rule_index\": 7,\n",
    chars! "      \"rule_name\": \"lexer_rule\",\n",
    chars! "      \"children\": [\n",
    chars! "        {\n",
    chars! "          \"token_type\": 6,\n",
    chars! "          \"token_name\": \"TOKEN_REF\",\n",
    chars! "          \"text\": \"RULE_REF\"\n",
    chars! "        },\n",
    chars! "        {\n",
    chars! "          \"token_type\": 8,\n",
    chars! "          \"token_name\": \"COLON\",\n",
    chars! "          \"text\": \":\"\n",
    chars! "        },\n",
    chars! "        {\n",
    chars! "          \"rule_index\": 8,\n"]

/-- `syntaxis2.json:881-920` -/
def syntaxis2Json23 : Str :=
  List.flatten [
    chars! "          \"rule_name\": \"regular\",\n",
    chars! "          \"children\": [\n",
    chars! "            {\n",
    chars! "              \"token_type\": 21,\n",
    chars! "              \"token_name\": \"REGULAR_LITERAL\",\n",
    chars! "              \"text\": \"/[a-z][a-zA-Z0-9_]+/\"\n",
    chars! "            }\n",
    chars! "          ]\n",
    chars! "        },\n",
    chars! "        {\n",
    chars! "          \"token_type\": 10,\n",
    chars! "          \"token_name\": \"SEMI\",\n",
    chars! "          \"text\": \";\"\n",
    chars! "        }\n",
    chars! "      ]\n",
    chars! "    },\n",
    chars! "    {\n",
    chars! "      \"rule_index\": 7,\n",
    chars! "      \"rule_name\": \"lexer_rule\",\n",
    chars! "      \"children\": [\n",
    chars! "        {\n",
    chars! "          \"token_type\": 6,\n",
    chars! "          \"token_name\": \"TOKEN_REF\",\n",
    chars! "          \"text\": \"TOKEN_REF\"\n",
    chars! "        },\n",
    chars! "        {\n",
    chars! "          \"token_type\": 8,\n",
    chars! "          \"token_name\": \"COLON\",\n",
    chars! "          \"text\": \":\"\n",
    chars! "        },\n",
    chars! "        {\n",
    chars! "          \"rule_index\": 8,\n",
    chars! "          \"rule_name\": \"regular\",\n",
    chars! "          \"children\": [\n",
    chars! "            {\n",
    chars! "              \"token_type\": 21,\n",
    chars! "              \"token_name\": \"REGULAR_LITERAL\",\n",
    chars! "              \"text\": \"/[A-Z][a-zA-Z0-9_]+/\"\n",
    chars! "            }\n",
    chars! "          ]\n"]

/-- `syntaxis2.json:921-960` -/
def syntaxis2Json24 : Str :=
  List.flatten [
    chars! "        },\n",
    chars! "        {\n",
    chars! "          \"token_type\": 10,\n",
    chars! "          \"token_name\": \"SEMI\",\n",
    chars! "          \"text\": \";\"\n",
    chars! "        }\n",
    chars! "      ]\n",
    chars! "    },\n",
    chars! "    {\n",
    chars! "      \"rule_index\": 7,\n",
    chars! "      \"rule_name\": \"lexer_rule\",\n",
    chars! "      \"children\": [\n",
    chars! "        {\n",
    chars! "          \"token_type\": 6,\n",
    chars! "          \"token_name\": \"TOKEN_REF\",\n",
    chars! "          \"text\": \"COLON\"\n",
    chars! "        },\n",
    chars! "        {\n",
    chars! "          \"token_type\": 8,\n",
    chars! "          \"token_name\": \"COLON\",\n",
    chars! "          \"text\": \":\"\n",
    chars! "        },\n",
    chars! "        {\n",
    chars! "          \"rule_index\": 8,\n",
    chars! "          \"rule_name\": \"regular\",\n",
    chars! "          \"children\": [\n",
    chars! "            {\n",
    chars! "              \"token_type\": 21,\n",
    chars! "              \"token_name\": \"REGULAR_LITERAL\",\n",
    chars! "              \"text\": \"/::=|:=|->|=>|:|=/\"\n",
    chars! "            }\n",
    chars! "          ]\n",
    chars! "        },\n",
    chars! "        {\n",
    chars! "          \"token_type\": 10,\n",
    chars! "          \"token_name\": \"SEMI\",\n",
    chars! "          \"text\": \";\"\n",
    chars! "        }\n",
    chars! "      ]\n",
    chars! "    },\n"]

/-- `syntaxis2.json:961-1000` -/
def syntaxis2Json25 : Str :=
  List.flatten [
    chars! "    {\n",
    chars! "      \"rule_index\": 7,\n",
    chars! "      \"rule_name\": \"lexer_rule\",\n",
    chars! "      \"children\": [\n",
    chars! "        {\n",
    chars! "          \"token_type\": 6,\n",
    chars! "          \"token_name\": \"TOKEN_REF\",\n",
    chars! "          \"text\": \"SEMI\"\n",
    chars! "        },\n",
    chars! "        {\n",
    chars! "          \"token_type\": 8,\n",
    chars! "          \"token_name\": \"COLON\",\n",
    chars! "          \"text\": \":\"\n",
    chars! "        },\n",
    chars! "        {\n",
    chars! "          \"rule_index\": 8,\n",
    chars! "          \"rule_name\": \"regular\",\n",
    chars! "          \"children\": [\n",
    chars! "            {\n",
    chars! "              \"token_type\": 21,\n",
    chars! "              \"token_name\": \"REGULAR_LITERAL\",\n",
    chars! "              \"text\": \"/;/\"\n",
    chars! "            }\n",
    chars! "          ]\n",
    chars! "        },\n",
    chars! "        {\n",
    chars! "          \"token_type\": 10,\n",
    chars! "          \"token_name\": \"SEMI\",\n",
    chars! "          \"text\": \";\"\n",
    chars! "        }\n",
    chars! "      ]\n",
    chars! "    },\n",
    chars! "    {\n",
    chars! "      \"rule_index\": 7,\n",
    chars! "      \"rule_name\": \"lexer_rule\",\n",
    chars! "      \"children\": [\n",
    chars! "        {\n",
    chars! "          \"token_type\": 6,\n",
    chars! "          \"token_name\": \"TOKEN_REF\",\n",
    chars! "          \"text\": \"OR\"\n"]

/-- `syntaxis2.json:1001-1040` -/
def syntaxis2Json26 : Str :=
  List.flatten [
    chars! "        },\n",
    chars! "        {\n",
    chars! "          \"token_type\": 8,\n",
    chars! "          \"token_name\": \"COLON\",\n",
    chars! "          \"text\": \":\"\n",
    chars! "        },\n",
    chars! "        {\n",
    chars! "          \"rule_index\": 8,\n",
    chars! "          \"rule_name\": \"regular\",\n",
    chars! "          \"children\": [\n",
    chars! "            {\n",
    chars! "              \"token_type\": 21,\n",
    chars! "              \"token_name\": \"REGULAR_LITERAL\",\n",
    chars! "              \"text\": \"/\\\\|/\"\n",
    chars! "            }\n",
    chars! "          ]\n",
    chars! "        },\n",
    chars! "        {\n",
    chars! "          \"token_type\": 10,\n",
    chars! "          \"token_name\": \"SEMI\",\n",
    chars! "          \"text\": \";\"\n",
    chars! "        }\n",
    chars! "      ]\n",
    chars! "    },\n",
    chars! "    {\n",
    chars! "      \"rule_index\": 7,\n",
    chars! "      \"rule_name\": \"lexer_rule\",\n",
    chars! "      \"children\": [\n",
    chars! "        {\n",
    chars! "          \"token_type\": 6,\n",
    chars! "          \"token_name\": \"TOKEN_REF\",\n",
    chars! "          \"text\": \"EPSILON\"\n",
    chars! "        },\n",
    chars! "        {\n",
    chars! "          \"token_type\": 8,\n",
    chars! "          \"token_name\": \"COLON\",\n",
    chars! "          \"text\": \":\"\n",
    chars! "        },\n",
    chars! "        {\n",
    chars! "          \"rule_index\": 8,\n"]

/-- `syntaxis2.json:1041-1080` -/
def syntaxis2Json27 : Str :=
  List.flatten [
    chars! "          \"rule_name\": \"regular\",\n",
    chars! "          \"children\": [\n",
    chars! "            {\n",
    chars! "              \"token_type\": 21,\n",
    chars! "              \"token_name\": \"REGULAR_LITERAL\",\n",
    chars! "              \"text\": \"/ε|epsilon/\"\n",
    chars! "            }\n",
    chars! "          ]\n",
    chars! "        },\n",
    chars! "        {\n",
    chars! "          \"token_type\": 10,\n",
    chars! "          \"token_name\": \"SEMI\",\n",
    chars! "          \"text\": \";\"\n",
    chars! "        }\n",
    chars! "      ]\n",
    chars! "    },\n",
    chars! "    {\n",
    chars! "      \"rule_index\": 7,\n",
    chars! "      \"rule_name\": \"lexer_rule\",\n",
    chars! "      \"children\": [\n",
    chars! "        {\n",
    chars! "          \"token_type\": 6,\n",
    chars! "          \"token_name\": \"TOKEN_REF\",\n",
    chars! "          \"text\": \"STAR\"\n",
    chars! "        },\n",
    chars! "        {\n",
    chars! "          \"token_type\": 8,\n",
    chars! "          \"token_name\": \"COLON\",\n",
    chars! "          \"text\": \":\"\n",
    chars! "        },\n",
    chars! "        {\n",
    chars! "          \"rule_index\": 8,\n",
    chars! "          \"rule_name\": \"regular\",\n",
    chars! "          \"children\": [\n",
    chars! "            {\n",
    chars! "              \"token_type\": 21,\n",
    chars! "              \"token_name\": \"REGULAR_LITERAL\",\n",
    chars! "              \"text\": \"/\\\\*/\"\n",
    chars! "            }\n",
    chars! "          ]\n"]

/-- `syntaxis2.json:1081-1120` -/
def syntaxis2Json28 : Str :=
  List.flatten [
    chars! "        },\n",
    chars! "        {\n",
    chars! "          \"token_type\": 10,\n",
    chars! "          \"token_name\": \"SEMI\",\n",
    chars! "          \"text\": \";\"\n",
    chars! "        }\n",
    chars! "      ]\n",
    chars! "    },\n",
    chars! "    {\n",
    chars! "      \"rule_index\": 7,\n",
    chars! "      \"rule_name\": \"lexer_rule\",\n",
    chars! "      \"children\": [\n",
    chars! "        {\n",
    chars! "          \"token_type\": 6,\n",
    chars! "          \"token_name\": \"TOKEN_REF\",\n",
    chars! "          \"text\": \"PLUS\"\n",
    chars! "        },\n",
    chars! "        {\n",
    chars! "          \"token_type\": 8,\n",
    chars! "          \"token_name\": \"COLON\",\n",
    chars! "          \"text\": \":\"\n",
    chars! "        },\n",
    chars! "        {\n",
    chars! "          \"rule_index\": 8,\n",
    chars! "          \"rule_name\": \"regular\",\n",
    chars! "          \"children\": [\n",
    chars! "            {\n",
    chars! "              \"token_type\": 21,\n",
    chars! "              \"token_name\": \"REGULAR_LITERAL\",\n",
    chars! "              \"text\": \"/\\\\+/\"\n",
    chars! "            }\n",
    chars! "          ]\n",
    chars! "        },\n",
    chars! "        {\n",
    chars! "          \"token_type\": 10,\n",
    chars! "          \"token_name\": \"SEMI\",\n",
    chars! "          \"text\": \";\"\n",
    chars! "        }\n",
    chars! "      ]\n",
    chars! "    },\n"]

/-- `syntaxis2.json:1121-1160` -/
def syntaxis2Json29 : Str :=
  List.flatten [
    chars! "    {\n",
    chars! "      \"rule_index\": 7,\n",
    chars! "      \"rule_name\": \"lexer_rule\",\n",
    chars! "      \"children\": [\n",
    chars! "        {\n",
    chars! "          \"token_type\": 6,\n",
    chars! "          \"token_name\": \"TOKEN_REF\",\n",
    chars! "          \"text\": \"QUESTION\"\n",
    chars! "        },\n",
    chars! "        {\n",
    chars! "          \"token_type\": 8,\n",
    chars! "          \"token_name\": \"COLON\",\n",
    chars! "          \"text\": \":\"\n",
    chars! "        },\n",
    chars! "        {\n",
    chars! "          \"rule_index\": 8,\n",
    chars! "          \"rule_name\": \"regular\",\n",
    chars! "          \"children\": [\n",
    chars! "            {\n",
    chars! "              \"token_type\": 21,\n",
    chars! "              \"token_name\": \"REGULAR_LITERAL\",\n",
    chars! "              \"text\": \"/\\\\?/\"\n",
    chars! "            }\n",
    chars! "          ]\n",
    chars! "        },\n",
    chars! "        {\n",
    chars! "          \"token_type\": 10,\n",
    chars! "          \"token_name\": \"SEMI\",\n",
    chars! "          \"text\": \";\"\n",
    chars! "        }\n",
    chars! "      ]\n",
    chars! "    },\n",
    chars! "    {\n",
    chars! "      \"rule_index\": 7,\n",
    chars! "      \"rule_name\": \"lexer_rule\",\n",
    chars! "      \"children\": [\n",
    chars! "        {\n",
    chars! "          \"token_type\": 6,\n",
    chars! "          \"token_name\": \"TOKEN_REF\",\n",
    chars! "          \"text\": \"LPAREN\"\n"]

/-- `syntaxis2.json:1161-1200` -/
def syntaxis2Json30 : Str :=
  List.flatten [
    chars! "        },\n",
    chars! "        {\n",
    chars! "          \"token_type\": 8,\n",
    chars! "          \"token_name\": \"COLON\",\n",
    chars! "          \"text\": \":\"\n",
    chars! "        },\n",
    chars! "        {\n",
    chars! "          \"rule_index\": 8,\n",
    chars! "          \"rule_name\": \"regular\",\n",
    chars! "          \"children\": [\n",
    chars! "            {\n",
    chars! "              \"token_type\": 21,\n",
    chars! "              \"token_name\": \"REGULAR_LITERAL\",\n",
    chars! "              \"text\": \"/\\\\(/\"\n",
    chars! "            }\n",
    chars! "          ]\n",
    chars! "        },\n",
    chars! "        {\n",
    chars! "          \"token_type\": 10,\n",
    chars! "          \"token_name\": \"SEMI\",\n",
    chars! "          \"text\": \";\"\n",
    chars! "        }\n",
    chars! "      ]\n",
    chars! "    },\n",
    chars! "    {\n",
    chars! "      \"rule_index\": 7,\n",
    chars! "      \"rule_name\": \"lexer_rule\",\n",
    chars! "      \"children\": [\n",
    chars! "        {\n",
    chars! "          \"token_type\": 6,\n",
    chars! "          \"token_name\": \"TOKEN_REF\",\n",
    chars! "          \"text\": \"RPAREN\"\n",
    chars! "        },\n",
    chars! "        {\n",
    chars! "          \"token_type\": 8,\n",
    chars! "          \"token_name\": \"COLON\",\n",
    chars! "          \"text\": \":\"\n",
    chars! "        },\n",
    chars! "        {\n",
    chars! "          \"rule_index\": 8,\n"]

/-- `syntaxis2.json:1201-1240` -/
def syntaxis2Json31 : Str :=
  List.flatten [
    chars! "          \"rule_name\": \"regular\",\n",
    chars! "          \"children\": [\n",
    chars! "            {\n",
    chars! "              \"token_type\": 21,\n",
    chars! "              \"token_name\": \"REGULAR_LITERAL\",\n",
    chars! "              \"text\": \"/\\\\)/\"\n",
    chars! "            }\n",
    chars! "          ]\n",
    chars! "        },\n",
    chars! "        {\n",
    chars! "          \"token_type\": 10,\n",
    chars! "          \"token_name\": \"SEMI\",\n",
    chars! "          \"text\": \";\"\n",
    chars! "        }\n",
    chars! "      ]\n",
    chars! "    },\n",
    chars! "    {\n",
    chars! "      \"rule_index\": 7,\n",
    chars! "      \"rule_name\": \"lexer_rule\",\n",
    chars! "      \"children\": [\n",
    chars! "        {\n",
    chars! "          \"token_type\": 6,\n",
    chars! "          \"token_name\": \"TOKEN_REF\",\n",
    chars! "          \"text\": \"STRING_LITERAL\"\n",
    chars! "        },\n",
    chars! "        {\n",
    chars! "          \"token_type\": 8,\n",
    chars! "          \"token_name\": \"COLON\",\n",
    chars! "          \"text\": \":\"\n",
    chars! "        },\n",
    chars! "        {\n",
    chars! "          \"rule_index\": 8,\n",
    chars! "          \"rule_name\": \"regular\",\n",
    chars! "          \"children\": [\n",
    chars! "            {\n",
    chars! "              \"token_type\": 21,\n",
    chars! "              \"token_name\": \"REGULAR_LITERAL\",\n",
    chars! "              \"text\": \"/'([^\\\\a\\\\d\\\\n\\\\r\\\\t\\\\f\\\\v\\\\\\\\']|(\\\\\\\\\\\\\\\\|\\\\\\\\'|\\\\\\\\a|\\\\\\\\d|\\\\\\\\n|\\\\\\\\r|\\\\\\\\t|\\\\\\\\f|\\\\\\\\v|\\\\\\\\u\\\\{(0x|0)?[a-f0-9]+\\\\})|\\\\d)*'/\"\n",
    chars! "            }\n",
    chars! "          ]\n"]

/-- `syntaxis2.json:1241-1280` -/
def syntaxis2Json32 : Str :=
  List.flatten [
    chars! "        },\n",
    chars! "        {\n",
    chars! "          \"token_type\": 10,\n",
    chars! "          \"token_name\": \"SEMI\",\n",
    chars! "          \"text\": \";\"\n",
    chars! "        }\n",
    chars! "      ]\n",
    chars! "    },\n",
    chars! "    {\n",
    chars! "      \"rule_index\": 7,\n",
    chars! "      \"rule_name\": \"lexer_rule\",\n",
    chars! "      \"children\": [\n",
    chars! "        {\n",
    chars! "          \"token_type\": 6,\n",
    chars! "          \"token_name\": \"TOKEN_REF\",\n",
    chars! "          \"text\": \"REGULAR_LITERAL\"\n",
    chars! "        },\n",
    chars! "        {\n",
    chars! "          \"token_type\": 8,\n",
    chars! "          \"token_name\": \"COLON\",\n",
    chars! "          \"text\": \":\"\n",
    chars! "        },\n",
    chars! "        {\n",
    chars! "          \"rule_index\": 8,\n",
    chars! "          \"rule_name\": \"regular\",\n",
    chars! "          \"children\": [\n",
    chars! "            {\n",
    chars! "              \"token_type\": 21,\n",
    chars! "              \"token_name\": \"REGULAR_LITERAL\",\n",
    chars! "              \"text\": \"/\\\\/(\\\\\\\\\\\\/|[^\\\\/])+\\\\//\"\n",
    chars! "            }\n",
    chars! "          ]\n",
    chars! "        },\n",
    chars! "        {\n",
    chars! "          \"token_type\": 10,\n",
    chars! "          \"token_name\": \"SEMI\",\n",
    chars! "          \"text\": \";\"\n",
    chars! "        }\n",
    chars! "      ]\n",
    chars! "    },\n"]

/-- `syntaxis2.json:1281-1314` -/
def syntaxis2Json33 : Str :=
  List.flatten [
    chars! "    {\n",
    chars! "      \"rule_index\": 7,\n",
    chars! "      \"rule_name\": \"lexer_rule\",\n",
    chars! "      \"children\": [\n",
    chars! "        {\n",
    chars! "          \"token_type\": 6,\n",
    chars! "          \"token_name\": \"TOKEN_REF\",\n",
    chars! "          \"text\": \"WHITE_SPACE\"\n",
    chars! "        },\n",
    chars! "        {\n",
    chars! "          \"token_type\": 8,\n",
    chars! "          \"token_name\": \"COLON\",\n",
    chars! "          \"text\": \":\"\n",
    chars! "        },\n",
    chars! "        {\n",
    chars! "          \"rule_index\": 8,\n",
    chars! "          \"rule_name\": \"regular\",\n",
    chars! "          \"children\": [\n",
    chars! "            {\n",
    chars! "              \"token_type\": 21,\n",
    chars! "              \"token_name\": \"REGULAR_LITERAL\",\n",
    chars! "              \"text\": \"/[ \\\\r\\\\n\\\\t\\\\f]+/\"\n",
    chars! "            }\n",
    chars! "          ]\n",
    chars! "        },\n",
    chars! "        {\n",
    chars! "          \"token_type\": 10,\n",
    chars! "          \"token_name\": \"SEMI\",\n",
    chars! "          \"text\": \";\"\n",
    chars! "        }\n",
    chars! "      ]\n",
    chars! "    }\n",
    chars! "  ]\n",
    chars! "}"]

/-- `syntaxis2.json:1-1314`, the whole file -/
def syntaxis2Json : Str :=
  List.flatten [
    syntaxis2Json1, syntaxis2Json2, syntaxis2Json3, syntaxis2Json4, syntaxis2Json5,
    syntaxis2Json6, syntaxis2Json7, syntaxis2Json8, syntaxis2Json9, syntaxis2Json10,
    syntaxis2Json11, syntaxis2Json12, syntaxis2Json13, syntaxis2Json14, syntaxis2Json15,
    syntaxis2Json16, syntaxis2Json17, syntaxis2Json18, syntaxis2Json19, syntaxis2Json20,
    syntaxis2Json21, syntaxis2Json22, syntaxis2Json23, syntaxis2Json24, syntaxis2Json25,
    syntaxis2Json26, syntaxis2Json27, syntaxis2Json28, syntaxis2Json29, syntaxis2Json30,
    syntaxis2Json31, syntaxis2Json32, syntaxis2Json33]

end Syntaxis.Artefacts
