import Verif.Model.Template
import Verif.Spec.Lex

/-!
# Files and records of the repository made by running the code

Generated by a script from `/repo/parser2.html` (written by `main.rs`), `/repo/tests/lexer_generate/lexer.rs` (written
by `tests/lexer_gen.rs`) and from the comments of `/repo/tests/first_set_test.rs` and `/repo/tests/follow_set_test.rs`
(printed by earlier versions of these tests).
-/

namespace Syntaxis.Artefacts
open Template (lines)

/-- `parser2.html:101`, a part of the line -/
def parser2Tree1 : Str :=
  chars! "    const ast = { name:`rule_list`,id: `0`, children:[{ name:`parser_rule`,id: `1`, childr" ++
  chars! "en:[{ name:`RULE_REF`, text: `rule_list`},{ name:`COLON`, text: `:`},{ name:`block`,id: `2" ++
  chars! "`, children:[{ name:`alternative`,id: `3`, children:[{ name:`element`,id: `5`, children:[{" ++
  chars! " name:`LPAREN`, text: `(`},{ name:`block`,id: `2`, children:[{ name:`alternative`,id: `3`," ++
  chars! " children:[{ name:`element`,id: `5`, children:[{ name:`RULE_REF`, text: `parser_rule`},],}" ++
  chars! ",],},{ name:`OR`, text: `|`},{ name:`alternative`,id: `3`, children:[{ name:`element`,id: " ++
  chars! "`5`, children:[{ name:`RULE_REF`, text: `lexer_rule`},],},],},],},{ name:`RPAREN`, text: `" ++
  chars! ")`},{ name:`ebnf_suffix`,id: `6`, children:[{ name:`STAR`, text: `*`},],},],},],},],},{ na" ++
  chars! "me:`SEMI`, text: `;`},],},{ name:`parser_rule`,id: `1`, children:[{ name:`RULE_REF`, text:" ++
  chars! " `parser_rule`},{ name:`COLON`, text: `:`},{ name:`block`,id: `2`, children:[{ name:`alter" ++
  chars! "native`,id: `3`, children:[{ name:`element`,id: `5`, children:[{ name:`TOKEN_REF`, text: `" ++
  chars! "RULE_REF`},],},{ name:`element`,id: `5`, children:[{ name:`TOKEN_REF`, text: `COLON`},],}," ++
  chars! "{ name:`element`,id: `5`, children:[{ name:`RULE_REF`, text: `block`},],},{ name:`element`" ++
  chars! ",id: `5`, children:[{ name:`TOKEN_REF`, text: `SEMI`},],},],},],},{ name:`SEMI`, text: `;`" ++
  chars! "},],},{ name:`parser_rule`,id: `1`, children:[{ name:`RULE_REF`, text: `block`},{ name:`CO" ++
  chars! "LON`, text: `:`},{ name:`block`,id: `2`, children:[{ name:`alternative`,id: `3`, children:" ++
  chars! "[{ name:`element`,id: `5`, children:[{ name:`RULE_REF`, text"

/-- `parser2.html:101`, a part of the line -/
def parser2Tree2 : Str :=
  chars! ": `alternative`},],},{ name:`element`,id: `5`, children:[{ name:`LPAREN`, text: `(`},{ nam" ++
  chars! "e:`block`,id: `2`, children:[{ name:`alternative`,id: `3`, children:[{ name:`element`,id: " ++
  chars! "`5`, children:[{ name:`TOKEN_REF`, text: `OR`},],},{ name:`element`,id: `5`, children:[{ n" ++
  chars! "ame:`RULE_REF`, text: `alternative`},],},],},],},{ name:`RPAREN`, text: `)`},{ name:`ebnf_" ++
  chars! "suffix`,id: `6`, children:[{ name:`STAR`, text: `*`},],},],},],},],},{ name:`SEMI`, text: " ++
  chars! "`;`},],},{ name:`parser_rule`,id: `1`, children:[{ name:`RULE_REF`, text: `alternative`},{" ++
  chars! " name:`COLON`, text: `:`},{ name:`block`,id: `2`, children:[{ name:`alternative`,id: `3`, " ++
  chars! "children:[{ name:`element`,id: `5`, children:[{ name:`RULE_REF`, text: `element`},{ name:`" ++
  chars! "ebnf_suffix`,id: `6`, children:[{ name:`PLUS`, text: `+`},],},],},],},{ name:`OR`, text: `" ++
  chars! "|`},{ name:`alternative`,id: `3`, children:[{ name:`element`,id: `5`, children:[{ name:`RU" ++
  chars! "LE_REF`, text: `epsilon`},],},],},],},{ name:`SEMI`, text: `;`},],},{ name:`parser_rule`,i" ++
  chars! "d: `1`, children:[{ name:`RULE_REF`, text: `epsilon`},{ name:`COLON`, text: `:`},{ name:`b" ++
  chars! "lock`,id: `2`, children:[{ name:`alternative`,id: `3`, children:[{ name:`element`,id: `5`," ++
  chars! " children:[{ name:`TOKEN_REF`, text: `EPSILON`},],},],},],},{ name:`SEMI`, text: `;`},],}," ++
  chars! "{ name:`parser_rule`,id: `1`, children:[{ name:`RULE_REF`, text: `element`},{ name:`COLON`" ++
  chars! ", text: `:`},{ name:`block`,id: `2`, children:[{ name:`alternative`,id: `3`, children:[{ n" ++
  chars! "ame:`element`,id: `5`, children:[{ name:`LPAREN`, text: `(`}"

/-- `parser2.html:101`, a part of the line -/
def parser2Tree3 : Str :=
  chars! ",{ name:`block`,id: `2`, children:[{ name:`alternative`,id: `3`, children:[{ name:`element" ++
  chars! "`,id: `5`, children:[{ name:`TOKEN_REF`, text: `TOKEN_REF`},],},],},{ name:`OR`, text: `|`" ++
  chars! "},{ name:`alternative`,id: `3`, children:[{ name:`element`,id: `5`, children:[{ name:`TOKE" ++
  chars! "N_REF`, text: `STRING_LITERAL`},],},],},{ name:`OR`, text: `|`},{ name:`alternative`,id: `" ++
  chars! "3`, children:[{ name:`element`,id: `5`, children:[{ name:`TOKEN_REF`, text: `RULE_REF`},]," ++
  chars! "},],},{ name:`OR`, text: `|`},{ name:`alternative`,id: `3`, children:[{ name:`element`,id:" ++
  chars! " `5`, children:[{ name:`TOKEN_REF`, text: `LPAREN`},],},{ name:`element`,id: `5`, children" ++
  chars! ":[{ name:`RULE_REF`, text: `block`},],},{ name:`element`,id: `5`, children:[{ name:`TOKEN_" ++
  chars! "REF`, text: `RPAREN`},],},],},],},{ name:`RPAREN`, text: `)`},],},{ name:`element`,id: `5`" ++
  chars! ", children:[{ name:`RULE_REF`, text: `ebnf_suffix`},{ name:`ebnf_suffix`,id: `6`, children" ++
  chars! ":[{ name:`QUESTION`, text: `?`},],},],},],},],},{ name:`SEMI`, text: `;`},],},{ name:`pars" ++
  chars! "er_rule`,id: `1`, children:[{ name:`RULE_REF`, text: `ebnf_suffix`},{ name:`COLON`, text: " ++
  chars! "`:`},{ name:`block`,id: `2`, children:[{ name:`alternative`,id: `3`, children:[{ name:`ele" ++
  chars! "ment`,id: `5`, children:[{ name:`LPAREN`, text: `(`},{ name:`block`,id: `2`, children:[{ n" ++
  chars! "ame:`alternative`,id: `3`, children:[{ name:`element`,id: `5`, children:[{ name:`TOKEN_REF" ++
  chars! "`, text: `STAR`},],},],},{ name:`OR`, text: `|`},{ name:`alternative`,id: `3`, children:[{" ++
  chars! " name:`element`,id: `5`, children:[{ name:`TOKEN_REF`, text:"

/-- `parser2.html:101`, a part of the line -/
def parser2Tree4 : Str :=
  chars! " `PLUS`},],},],},{ name:`OR`, text: `|`},{ name:`alternative`,id: `3`, children:[{ name:`e" ++
  chars! "lement`,id: `5`, children:[{ name:`TOKEN_REF`, text: `QUESTION`},],},],},],},{ name:`RPARE" ++
  chars! "N`, text: `)`},],},{ name:`element`,id: `5`, children:[{ name:`TOKEN_REF`, text: `QUESTION" ++
  chars! "`},{ name:`ebnf_suffix`,id: `6`, children:[{ name:`QUESTION`, text: `?`},],},],},],},],},{" ++
  chars! " name:`SEMI`, text: `;`},],},{ name:`parser_rule`,id: `1`, children:[{ name:`RULE_REF`, te" ++
  chars! "xt: `lexer_rule`},{ name:`COLON`, text: `:`},{ name:`block`,id: `2`, children:[{ name:`alt" ++
  chars! "ernative`,id: `3`, children:[{ name:`element`,id: `5`, children:[{ name:`TOKEN_REF`, text:" ++
  chars! " `TOKEN_REF`},],},{ name:`element`,id: `5`, children:[{ name:`TOKEN_REF`, text: `COLON`},]" ++
  chars! ",},{ name:`element`,id: `5`, children:[{ name:`RULE_REF`, text: `regular`},],},{ name:`ele" ++
  chars! "ment`,id: `5`, children:[{ name:`TOKEN_REF`, text: `SEMI`},],},],},],},{ name:`SEMI`, text" ++
  chars! ": `;`},],},{ name:`parser_rule`,id: `1`, children:[{ name:`RULE_REF`, text: `regular`},{ n" ++
  chars! "ame:`COLON`, text: `:`},{ name:`block`,id: `2`, children:[{ name:`alternative`,id: `3`, ch" ++
  chars! "ildren:[{ name:`element`,id: `5`, children:[{ name:`TOKEN_REF`, text: `REGULAR_LITERAL`},]" ++
  chars! ",},],},],},{ name:`SEMI`, text: `;`},],},{ name:`lexer_rule`,id: `7`, children:[{ name:`TO" ++
  chars! "KEN_REF`, text: `RULE_REF`},{ name:`COLON`, text: `:`},{ name:`regular`,id: `8`, children:" ++
  chars! "[{ name:`REGULAR_LITERAL`, text: `/[a-z][a-zA-Z0-9_]+/`},],},{ name:`SEMI`, text: `;`},],}" ++
  chars! ",{ name:`lexer_rule`,id: `7`, children:[{ name:`TOKEN_REF`, "

/-- `parser2.html:101`, a part of the line -/
def parser2Tree5 : Str :=
  chars! "text: `TOKEN_REF`},{ name:`COLON`, text: `:`},{ name:`regular`,id: `8`, children:[{ name:`" ++
  chars! "REGULAR_LITERAL`, text: `/[A-Z][a-zA-Z0-9_]+/`},],},{ name:`SEMI`, text: `;`},],},{ name:`" ++
  chars! "lexer_rule`,id: `7`, children:[{ name:`TOKEN_REF`, text: `COLON`},{ name:`COLON`, text: `:" ++
  chars! "`},{ name:`regular`,id: `8`, children:[{ name:`REGULAR_LITERAL`, text: `/::=|:=|->|=>|:|=/" ++
  chars! "`},],},{ name:`SEMI`, text: `;`},],},{ name:`lexer_rule`,id: `7`, children:[{ name:`TOKEN_" ++
  chars! "REF`, text: `SEMI`},{ name:`COLON`, text: `:`},{ name:`regular`,id: `8`, children:[{ name:" ++
  chars! "`REGULAR_LITERAL`, text: `/;/`},],},{ name:`SEMI`, text: `;`},],},{ name:`lexer_rule`,id: " ++
  chars! "`7`, children:[{ name:`TOKEN_REF`, text: `OR`},{ name:`COLON`, text: `:`},{ name:`regular`" ++
  chars! ",id: `8`, children:[{ name:`REGULAR_LITERAL`, text: `/\\\\|/`},],},{ name:`SEMI`, text: `;`}" ++
  chars! ",],},{ name:`lexer_rule`,id: `7`, children:[{ name:`TOKEN_REF`, text: `EPSILON`},{ name:`C" ++
  chars! "OLON`, text: `:`},{ name:`regular`,id: `8`, children:[{ name:`REGULAR_LITERAL`, text: `/ε|" ++
  chars! "epsilon/`},],},{ name:`SEMI`, text: `;`},],},{ name:`lexer_rule`,id: `7`, children:[{ name" ++
  chars! ":`TOKEN_REF`, text: `STAR`},{ name:`COLON`, text: `:`},{ name:`regular`,id: `8`, children:" ++
  chars! "[{ name:`REGULAR_LITERAL`, text: `/\\\\* /`},],},{ name:`SEMI`, text: `;`},],},{ name:`lexer" ++
  chars! "_rule`,id: `7`, children:[{ name:`TOKEN_REF`, text: `PLUS`},{ name:`COLON`, text: `:`},{ n" ++
  chars! "ame:`regular`,id: `8`, children:[{ name:`REGULAR_LITERAL`, text: `/\\\\+/`},],},{ name:`SEMI" ++
  chars! "`, text: `;`},],},{ name:`lexer_rule`,id: `7`, children:[{ n"

/-- `parser2.html:101`, a part of the line -/
def parser2Tree6 : Str :=
  chars! "ame:`TOKEN_REF`, text: `QUESTION`},{ name:`COLON`, text: `:`},{ name:`regular`,id: `8`, ch" ++
  chars! "ildren:[{ name:`REGULAR_LITERAL`, text: `/\\\\?/`},],},{ name:`SEMI`, text: `;`},],},{ name:" ++
  chars! "`lexer_rule`,id: `7`, children:[{ name:`TOKEN_REF`, text: `LPAREN`},{ name:`COLON`, text: " ++
  chars! "`:`},{ name:`regular`,id: `8`, children:[{ name:`REGULAR_LITERAL`, text: `/\\\\(/`},],},{ na" ++
  chars! "me:`SEMI`, text: `;`},],},{ name:`lexer_rule`,id: `7`, children:[{ name:`TOKEN_REF`, text:" ++
  chars! " `RPAREN`},{ name:`COLON`, text: `:`},{ name:`regular`,id: `8`, children:[{ name:`REGULAR_" ++
  chars! "LITERAL`, text: `/\\\\)/`},],},{ name:`SEMI`, text: `;`},],},{ name:`lexer_rule`,id: `7`, ch" ++
  chars! "ildren:[{ name:`TOKEN_REF`, text: `STRING_LITERAL`},{ name:`COLON`, text: `:`},{ name:`reg" ++
  chars! "ular`,id: `8`, children:[{ name:`REGULAR_LITERAL`, text: `/\"((\\\\\\\\\\\\\\\\|\\\\\\\\\"|\\\\\\\\a|\\\\\\\\d|\\" ++
  chars! "\\\\\\n|\\\\\\\\r|\\\\\\\\t|\\\\\\\\f|\\\\\\\\v|\\\\\\\\u\\\\{(0x|0)?[a-f0-9]+\\\\})|\\\\d|[^\\\\a\\\\d\\\\n\\\\r\\\\t\\\\f\\\\v\\\\\\\\\"" ++
  chars! "])*\"/`},],},{ name:`SEMI`, text: `;`},],},{ name:`lexer_rule`,id: `7`, children:[{ name:`T" ++
  chars! "OKEN_REF`, text: `REGULAR_LITERAL`},{ name:`COLON`, text: `:`},{ name:`regular`,id: `8`, c" ++
  chars! "hildren:[{ name:`REGULAR_LITERAL`, text: `/\\\\/(\\\\\\\\\\\\/|[^\\\\/])+\\\\//`},],},{ name:`SEMI`, t" ++
  chars! "ext: `;`},],},{ name:`lexer_rule`,id: `7`, children:[{ name:`TOKEN_REF`, text: `WHITE_SPAC" ++
  chars! "E`},{ name:`COLON`, text: `:`},{ name:`regular`,id: `8`, children:[{ name:`REGULAR_LITERAL" ++
  chars! "`, text: `/[ \\\\r\\\\n\\\\t\\\\f]+/`},],},{ name:`SEMI`, text: `;`},],},],};"

/-- `parser2.html:1-40` -/
def parser21 : Str :=
  lines [
    chars! "<!DOCTYPE html>",
    chars! "<html lang=\"en\">",
    chars! "",
    chars! "<head>",
    chars! "  <meta charset=\"UTF-8\">",
    chars! "  <meta http-equiv=\"X-UA-Compatible\" content=\"IE=edge\">",
    chars! "  <meta name=\"viewport\" content=\"width=device-width, initial-scale=1.0\">",
    chars! "  <title>parser</title>",
    chars! "  <style>",
    chars! "    * {",
    chars! "      margin: 0 0;",
    chars! "    }",
    chars! "",
    chars! "    *::-webkit-scrollbar {",
    chars! "      width: 5px;",
    chars! "      height: 5px;",
    chars! "    }",
    chars! "",
    chars! "    /* 两个滚动条交接处 -- x轴和y轴 */",
    chars! "    *::-webkit-scrollbar-corner {",
    chars! "      background-color: transparent;",
    chars! "    }",
    chars! "",
    chars! "    /* 滚动条滑块 */",
    chars! "    *::-webkit-scrollbar-thumb {",
    chars! "      border-radius: 10px;",
    chars! "      -webkit-box-shadow: inset 0 0 5px rgba(0, 0, 0, 0.2);",
    chars! "      background: #49b1f5;",
    chars! "    }",
    chars! "",
    chars! "    /* 滚动条轨道 */",
    chars! "    *::-webkit-scrollbar-track {",
    chars! "      -webkit-box-shadow: inset 0 0 5px rgba(0, 0, 0, 0.2);",
    chars! "      border-radius: 10px;",
    chars! "      background: #ededed;",
    chars! "    }",
    chars! "",
    chars! "    *::-webkit-slider-container {",
    chars! "      /*可以修改容器的若干样式*/",
    chars! "      width: 5px;"]

/-- `parser2.html:41-80` -/
def parser22 : Str :=
  lines [
    chars! "      height: 5px;",
    chars! "    }",
    chars! "",
    chars! "    input {",
    chars! "      width: 300px;",
    chars! "    }",
    chars! "",
    chars! "",
    chars! "    button {",
    chars! "      background-color: #49b1f5;",
    chars! "      border: none;",
    chars! "      color: white;",
    chars! "      text-align: center;",
    chars! "      text-decoration: none;",
    chars! "      display: inline-block;",
    chars! "      border-radius: 4px;",
    chars! "    }",
    chars! "    ",
    chars! "    button:hover {",
    chars! "      box-shadow: 0 6px 8px 0 rgba(0,0,0,0.24), 0 17px 50px 0 rgba(0,0,0,0.19);",
    chars! "    }",
    chars! "  </style>",
    chars! "</head>",
    chars! "",
    chars! "<body>",
    chars! "  <div style=\"overflow: hidden;\">",
    chars! "    <div id=\"content\"",
    chars! "      style=\"overflow-x: hidden; position: fixed; height: 100vh; overflow-y: auto;  backgr" ++
      chars! "ound-color: rgb(244, 237, 237); width: 255px; z-index: 100;\">",
    chars! "    </div>",
    chars! "    <div id=\"super\" style=\"position: relative; overflow-y: visible; overflow-x: visible; m" ++
      chars! "argin-left: 255px; min-height: 100vh;\">",
    chars! "",
    chars! "      <div id=\"container\"",
    chars! "        style=\"overflow: visible; height: 100%; background-color: transparent; display: fl" ++
      chars! "ex;justify-content: center; z-index: 1;\">",
    chars! "        <div id=\"tree\" style=\"overflow: visible;\"></div>",
    chars! "      </div>",
    chars! "",
    chars! "      <!-- <div style=\"position: absolute; left: 0; top: 0;\">",
    chars! "        <button id=\"reset\">复位</button>",
    chars! "        <button id=\"switch\">转换为 cluster</button>",
    chars! "        <input id=\"slider\" type=\"range\" min=\"0\" max=\"550\" step=\"1\"  /> "]

/-- `parser2.html:81-120` -/
def parser23 : Str :=
  lines [
    chars! "      </div> -->",
    chars! "",
    chars! "",
    chars! "    </div>",
    chars! "    <div style=\"position: absolute; left: 260px; top: 5px;\">",
    chars! "      <button id=\"reset\">复位(reset)</button>",
    chars! "      <button id=\"switch\">转换为cluster (use cluster)</button>",
    chars! "      <span>",
    chars! "        dx",
    chars! "        <input id=\"slider\" type=\"range\" min=\"32\" max=\"512\" step=\"1\" value=\"128\" /> ",
    chars! "      </span>",
    chars! "      <span>",
    chars! "        dy",
    chars! "        <input id=\"slider2\" type=\"range\" min=\"32\" max=\"512\" step=\"1\" value=\"96\" /> ",
    chars! "      </span>",
    chars! "    </div>",
    chars! "",
    chars! "  </div>",
    chars! "",
    chars! "  <script type=\"module\">",
    parser2Tree1 ++ parser2Tree2 ++ parser2Tree3 ++ parser2Tree4 ++ parser2Tree5 ++ parser2Tree6,
    chars! "",
    chars! "    import * as d3 from \"https://cdn.jsdelivr.net/npm/d3@7/+esm\";",
    chars! "    const maxScale = 4, minScale = 0.05;",
    chars! "",
    chars! "    let config = {",
    chars! "      tree_or_cluster: d3.tree,",
    chars! "      current: ast, ",
    chars! "      scale: 1.0,",
    chars! "      isPointerdown: false,",
    chars! "      lastPointermove: { x: 0, y: 0 },",
    chars! "      x: 0, ",
    chars! "      y: 0,",
    chars! "      ast_width: 128,",
    chars! "      ast_height: 96,",
    chars! "    };",
    chars! "",
    chars! "    const content = indentTree(ast);",
    chars! "    document.getElementById('content').appendChild(content);",
    chars! "    const tree = collapsibleTree(ast, { tree: config.tree_or_cluster, dx: config.ast_width" ++
      chars! ", dy: config.ast_height });"]

/-- `parser2.html:121-160` -/
def parser24 : Str :=
  lines [
    chars! "    document.getElementById('tree').appendChild(tree);",
    chars! "",
    chars! "    // 增加一些拖拽和缩放功能。",
    chars! "    bindEvents(document.getElementById('super'), document.getElementById('container'));",
    chars! "    document.getElementById('reset').addEventListener('click', e => reset());",
    chars! "    document.getElementById('switch').addEventListener('click', e => {",
    chars! "      // console.log(e.target.innerHTML, typeof e.target.innerHTML);",
    chars! "      if (e.target.innerHTML.endsWith('(use cluster)')) {",
    chars! "        config.tree_or_cluster = d3.cluster;",
    chars! "        e.target.innerHTML = '转换为 tree (use tree)';",
    chars! "        render();",
    chars! "      }",
    chars! "      else {",
    chars! "        config.tree_or_cluster = d3.tree;",
    chars! "        e.target.innerHTML = '转换为 cluster (use cluster)';",
    chars! "        render();",
    chars! "      }",
    chars! "    });",
    chars! "",
    chars! "    document.getElementById('slider').onchange = (e) => {",
    chars! "      config.ast_width = e.target.value;",
    chars! "      render();",
    chars! "    };",
    chars! "    document.getElementById('slider2').onchange = (e) => {",
    chars! "      config.ast_height = e.target.value;",
    chars! "      render();",
    chars! "    };",
    chars! "",
    chars! "",
    chars! "",
    chars! "",
    chars! "",
    chars! "",
    chars! "",
    chars! "",
    chars! "",
    chars! "    function indentTree(data, { nodeSize = 25, minWidth = 255 } = {}) {",
    chars! "      let width = minWidth;",
    chars! "",
    chars! "      // 前序遍历? d.index用于计算布局，d.id用于更新"]

/-- `parser2.html:161-200` -/
def parser25 : Str :=
  lines [
    chars! "      const root = d3.hierarchy(data);",
    chars! "",
    chars! "      root.descendants().forEach((d, i) => {",
    chars! "        d.id = i;",
    chars! "        d._children = d.children;",
    chars! "        d.y = i * nodeSize;",
    chars! "",
    chars! "        // 如果需要在启动的时候就处于折叠状态，则将下面这行取消注释",
    chars! "        // d.children = null;",
    chars! "",
    chars! "        // 计算最小尺寸, 假设一个字符占12个像素",
    chars! "        const tmp = d.depth * nodeSize + d.data.name.length * 13 + 6;",
    chars! "        width = tmp > width ? tmp : width;",
    chars! "      });",
    chars! "",
    chars! "      const svg = d3.create(\"svg\")",
    chars! "        .attr(\"viewBox\", [-nodeSize / 2, -nodeSize * 3 / 2, width, 2 * nodeSize])",
    chars! "        .attr(\"font-family\", \"sans-serif\")",
    chars! "        .attr(\"font-size\", 18)",
    chars! "        .style(\"overflow\", \"visible\");",
    chars! "",
    chars! "      const gLink = svg.append(\"g\")",
    chars! "        .attr(\"fill\", \"none\")",
    chars! "        .attr(\"stroke\", \"#999\");",
    chars! "",
    chars! "      const gNode = svg.append(\"g\");",
    chars! "",
    chars! "      // bias_y 父节点的纵向偏移",
    chars! "      function update(source, bias_y) {",
    chars! "",
    chars! "        // 前序遍历, 更新位置",
    chars! "        root.eachBefore((d, i) => {",
    chars! "          d.y = i * nodeSize;",
    chars! "        });",
    chars! "",
    chars! "        const duration = 800;",
    chars! "        const nodes = root.descendants();",
    chars! "        const links = root.links();",
    chars! "",
    chars! ""]

/-- `parser2.html:201-240` -/
def parser26 : Str :=
  lines [
    chars! "        const transition = svg.transition()",
    chars! "          .duration(duration)",
    chars! "          .attr(\"viewBox\", [-nodeSize / 2, -nodeSize * 3 / 2, width, (nodes.length + 1) * " ++
      chars! "nodeSize])",
    chars! "          .tween(\"resize\", window.ResizeObserver ? null : () => () => svg.dispatch(\"toggle" ++
      chars! "\"));",
    chars! "",
    chars! "",
    chars! "        const node = gNode.selectAll(\"g\").data(nodes, d => d.id);",
    chars! "",
    chars! "",
    chars! "        const nodeEnter = node.enter().append(\"g\")",
    chars! "          .attr(\"transform\", d => `translate(0, ${bias_y})`)",
    chars! "          .attr(\"fill-opacity\", 0)",
    chars! "          .attr(\"stroke-opacity\", 0);",
    chars! "",
    chars! "        nodeEnter.append(\"circle\")",
    chars! "          .attr(\"cx\", d => d.depth * nodeSize)",
    chars! "          .attr(\"r\", 5)",
    chars! "          .attr(\"fill\", d => d._children ? null : \"#999\")",
    chars! "          .on(\"click\", (event, d) => {",
    chars! "            d.children = d.children ? null : d._children;",
    chars! "            update(d, d.y);",
    chars! "          });",
    chars! "",
    chars! "        nodeEnter.append(\"text\")",
    chars! "          .attr(\"dy\", \"0.32em\")",
    chars! "          .attr(\"x\", d => d.depth * nodeSize + 8)",
    chars! "          .text(d => d.data.name)",
    chars! "          .attr(\"cursor\", \"pointer\")",
    chars! "          .on(\"click\", (event, d) => {",
    chars! "            config.current = d.data;",
    chars! "            render();",
    chars! "          })",
    chars! "          .clone(true).lower()",
    chars! "          .attr(\"stroke-linejoin\", \"round\")",
    chars! "          .attr(\"stroke-width\", 3)",
    chars! "          .attr(\"stroke\", \"white\");",
    chars! "",
    chars! "        node.merge(nodeEnter).transition(transition)",
    chars! "          .attr(\"transform\", d => `translate(0, ${d.y})`)",
    chars! "          .attr(\"fill-opacity\", 1)"]

/-- `parser2.html:241-280` -/
def parser27 : Str :=
  lines [
    chars! "          .attr(\"stroke-opacity\", 1);",
    chars! "",
    chars! "        node.exit().transition(transition).remove()",
    chars! "          .attr(\"transform\", d => `translate(0, ${bias_y})`)",
    chars! "          .attr(\"fill-opacity\", 0)",
    chars! "          .attr(\"stroke-opacity\", 0);",
    chars! "",
    chars! "        const link = gLink.selectAll(\"path\")",
    chars! "          .data(links, d => d.target.id);",
    chars! "",
    chars! "        const linkEnter = link.enter().append(\"path\")",
    chars! "          .attr(\"d\", d => `",
    chars! "          M${d.source.depth * nodeSize},${bias_y}",
    chars! "          V${bias_y}",
    chars! "          h${nodeSize}",
    chars! "        `);",
    chars! "",
    chars! "        link.merge(linkEnter).transition(transition)",
    chars! "          .attr(\"d\", d => `",
    chars! "          M${d.source.depth * nodeSize},${d.source.y}",
    chars! "          V${d.target.y}",
    chars! "          h${nodeSize}",
    chars! "        `);",
    chars! "",
    chars! "        link.exit().transition(transition).remove()",
    chars! "          .attr(\"d\", d => `",
    chars! "          M${d.source.depth * nodeSize},${bias_y}",
    chars! "          V${bias_y}",
    chars! "          h${nodeSize}`)",
    chars! "      }",
    chars! "",
    chars! "      update(root, 0);",
    chars! "      return svg.node();",
    chars! "    }",
    chars! "",
    chars! "    function collapsibleTree(data, {",
    chars! "      id = Array.isArray(data) ? d => d.id : null,",
    chars! "      parentId = Array.isArray(data) ? d => d.parentId : null,",
    chars! "      tree = d3.tree,",
    chars! "      r = 5,"]

/-- `parser2.html:281-320` -/
def parser28 : Str :=
  lines [
    chars! "      padding = 1,",
    chars! "      stroke = \"#555\",",
    chars! "      strokeWidth = 1.5,",
    chars! "      strokeOpacity = 0.4,",
    chars! "      curve = d3.curveBumpX,",
    chars! "      dx = 128,",
    chars! "      dy = 128,",
    chars! "      margin = { top: 40, right: 120, bottom: 10, left: 40 }",
    chars! "    } = {}) {",
    chars! "",
    chars! "      const root = d3.hierarchy(data);",
    chars! "      const diagonal = d3.linkVertical(curve).x(d => d.x).y(d => d.y);",
    chars! "      const tree_func = tree().nodeSize([dx, dy]);",
    chars! "",
    chars! "",
    chars! "      root.descendants().forEach((d, i) => {",
    chars! "        d.id = i;",
    chars! "        d._children = d.children;",
    chars! "        // d.children = null;",
    chars! "      });",
    chars! "",
    chars! "      const svg = d3.create(\"svg\")",
    chars! "        // .attr(\"viewBox\", [-margin.left, -margin.top, width, dx])",
    chars! "        .attr(\"font-size\", 14)",
    chars! "        .style(\"overflow\", \"visible\")",
    chars! "        .style(\"user-select\", \"none\");",
    chars! "",
    chars! "      const gLink = svg.append(\"g\")",
    chars! "        .attr(\"fill\", \"none\")",
    chars! "        .attr(\"stroke\", \"#555\")",
    chars! "        .attr(\"stroke-opacity\", 0.4)",
    chars! "        .attr(\"stroke-width\", 1.5);",
    chars! "",
    chars! "      const gNode = svg.append(\"g\")",
    chars! "        // .attr(\"cursor\", \"pointer\")",
    chars! "        .attr(\"pointer-events\", \"all\");",
    chars! "",
    chars! "      function update(source, from_x, from_y) {",
    chars! "        const duration = d3.event && d3.event.altKey ? 2500 : 300;",
    chars! ""]

/-- `parser2.html:321-360` -/
def parser29 : Str :=
  lines [
    chars! "        const nodes = root.descendants().reverse();",
    chars! "        const links = root.links();",
    chars! "",
    chars! "        // Compute the new tree layout.",
    chars! "        tree_func(root);",
    chars! "",
    chars! "        let left = root;",
    chars! "        let right = root;",
    chars! "        let top = root;",
    chars! "        let bottom = root;",
    chars! "        root.eachBefore(node => {",
    chars! "          if (node.x < left.x) left = node;",
    chars! "          if (node.x > right.x) right = node;",
    chars! "          if (node.y < top.y) top = node;",
    chars! "          if (node.y > bottom.y) bottom = node;",
    chars! "        });",
    chars! "",
    chars! "        // const height = right.x - left.x + margin.top + margin.bottom;",
    chars! "        const width = right.x - left.x + margin.left + margin.right;",
    chars! "        const height = bottom.y - top.y + margin.top + margin.bottom;",
    chars! "",
    chars! "        const transition = svg.transition()",
    chars! "          .duration(duration)",
    chars! "          .attr('height', height)",
    chars! "          .attr('width', width)",
    chars! "          .attr(\"viewBox\", [-margin.left + left.x, top.y - margin.top, width, height])",
    chars! "          .tween(\"resize\", window.ResizeObserver ? null : () => () => svg.dispatch(\"toggle" ++
      chars! "\"));",
    chars! "",
    chars! "        // Update the nodes…",
    chars! "        const node = gNode.selectAll(\"g\")",
    chars! "          .data(nodes, d => d.id);",
    chars! "",
    chars! "",
    chars! "        // Enter any new nodes at the parent's previous position.",
    chars! "        const nodeEnter = node.enter().append(\"g\")",
    chars! "          .attr(\"transform\", d => `translate(${from_x},${from_y})`)",
    chars! "          .attr(\"fill-opacity\", 0)",
    chars! "          .attr(\"stroke-opacity\", 0);",
    chars! "",
    chars! "        nodeEnter.append(\"title\")"]

/-- `parser2.html:361-400` -/
def parser210 : Str :=
  lines [
    chars! "        .text(d => d._children ? d.data.id: d.data.name);",
    chars! "",
    chars! "        nodeEnter.append(\"text\")",
    chars! "          .attr(\"y\", 0)",
    chars! "          .attr('font-weight', 'bold')",
    chars! "          // .attr('font-style', d => d._children ? 'italic': 'normal')",
    chars! "          .attr(\"cursor\", d => d._children ? \"pointer\" : \"default\")",
    chars! "          .attr('fill', d => d._children ? \"#333\" : \"#999\")",
    chars! "          .attr(\"text-anchor\", \"middle\")",
    chars! "          .text(d => d._children ? d.data.name: d.data.text)",
    chars! "          .on(\"pointerdown\", (event, d) => {",
    chars! "            d.children = d.children ? null : d._children;",
    chars! "            update(d, d.x, d.y);",
    chars! "          })",
    chars! "          .clone(true).lower()",
    chars! "          .attr(\"stroke-linejoin\", \"round\")",
    chars! "          .attr(\"stroke-width\", 3)",
    chars! "          .attr(\"stroke\", \"white\");",
    chars! "",
    chars! "        // Transition nodes to their new position.",
    chars! "        const nodeUpdate = node.merge(nodeEnter).transition(transition)",
    chars! "          .attr(\"transform\", d => `translate(${d.x},${d.y})`)",
    chars! "          .attr(\"fill-opacity\", 1)",
    chars! "          .attr(\"stroke-opacity\", 1);",
    chars! "",
    chars! "        // Transition exiting nodes to the parent's new position.",
    chars! "        const nodeExit = node.exit().transition(transition).remove()",
    chars! "          .attr(\"transform\", d => `translate(${source.x},${source.y})`)",
    chars! "          .attr(\"fill-opacity\", 0)",
    chars! "          .attr(\"stroke-opacity\", 0);",
    chars! "",
    chars! "        // Update the links…",
    chars! "        const link = gLink.selectAll(\"path\")",
    chars! "          .data(links, d => d.target.id);",
    chars! "",
    chars! "        // Enter any new links at the parent's previous position.",
    chars! "        const linkEnter = link.enter().append(\"path\")",
    chars! "          .attr(\"d\", d => {",
    chars! "            const o = { x: from_x, y: from_y };",
    chars! "            return diagonal({ source: o, target: o });"]

/-- `parser2.html:401-440` -/
def parser211 : Str :=
  lines [
    chars! "          });",
    chars! "",
    chars! "        // Transition links to their new position.",
    chars! "        link.merge(linkEnter).transition(transition)",
    chars! "          .attr(\"d\", diagonal);",
    chars! "",
    chars! "        // Transition exiting nodes to the parent's new position.",
    chars! "        link.exit().transition(transition).remove()",
    chars! "          .attr(\"d\", d => {",
    chars! "            const o = { x: source.x, y: source.y };",
    chars! "            return diagonal({ source: o, target: o });",
    chars! "          });",
    chars! "      }",
    chars! "",
    chars! "      update(root, 0, 0);",
    chars! "",
    chars! "      return svg.node();",
    chars! "    }",
    chars! "",
    chars! "    function bindEvents(parent, element) {",
    chars! "      document.body.onresize = () => {",
    chars! "        // console.log('body resized!');",
    chars! "        setSize(element);",
    chars! "      }",
    chars! "      ",
    chars! "      // 绑定滚轮缩放",
    chars! "      parent.addEventListener('wheel', (e) => {",
    chars! "        let ratio = 1.1;",
    chars! "        // 缩小",
    chars! "        if (e.deltaY > 0) {",
    chars! "          ratio = 1 / 1.1;",
    chars! "        }",
    chars! "        config.scale *= ratio;",
    chars! "        if (config.scale > maxScale) config.scale = maxScale;",
    chars! "        else if (config.scale < minScale) config.scale = minScale;",
    chars! "",
    chars! "        // scale 后面不要有空格 translateX 里面一定要有单位",
    chars! "        const transform = `translateX(${config.x}px) translateY(${config.y}px) scale(${con" ++
      chars! "fig.scale})`;",
    chars! "        element.style.transform = transform;",
    chars! ""]

/-- `parser2.html:441-480` -/
def parser212 : Str :=
  lines [
    chars! "        // 预防执行默认的行为",
    chars! "        e.preventDefault();",
    chars! "      });",
    chars! "",
    chars! "      // 绑定拖拽功能",
    chars! "      parent.addEventListener('pointerdown', (e) => {",
    chars! "        if (e.button == 0) {",
    chars! "          config.isPointerdown = true;",
    chars! "          element.setPointerCapture(e.pointerId);",
    chars! "          config.lastPointermove = { x: e.clientX, y: e.clientY };",
    chars! "          // e.preventDefault();",
    chars! "        }",
    chars! "      });",
    chars! "",
    chars! "      parent.addEventListener('pointerup', (e) => {",
    chars! "        if (e.button == 0) {",
    chars! "          config.isPointerdown = false;",
    chars! "          e.preventDefault();",
    chars! "        }",
    chars! "",
    chars! "      });",
    chars! "",
    chars! "      parent.addEventListener('pointermove', (e) => {",
    chars! "        if (config.isPointerdown) {",
    chars! "          const current = { x: e.clientX, y: e.clientY };",
    chars! "          const dx = current.x - config.lastPointermove.x;",
    chars! "          const dy = current.y - config.lastPointermove.y;",
    chars! "          config.lastPointermove = { x: current.x, y: current.y };",
    chars! "          config.x += dx; config.y += dy;",
    chars! "",
    chars! "          const transform = `translateX(${config.x}px) translateY(${config.y}px) scale(${c" ++
      chars! "onfig.scale})`;",
    chars! "          element.style.transform = transform;",
    chars! "",
    chars! "          e.preventDefault();",
    chars! "        }",
    chars! "",
    chars! "      });",
    chars! "",
    chars! "      setSize(element);",
    chars! "    }"]

/-- `parser2.html:481-511` -/
def parser213 : Str :=
  lines [
    chars! "",
    chars! "    function setSize(element) {",
    chars! "      if (element.scrollWidth > window.innerWidth || element.scrollHeight > window.innerHe" ++
      chars! "ight) {",
    chars! "        element.style.width = window.innerWidth + 'px';",
    chars! "        element.style.height = window.innerHeight + 'px';",
    chars! "      }",
    chars! "    }",
    chars! "",
    chars! "    function reset() {",
    chars! "      config.scale = 1.0;",
    chars! "      config.isPointerdown = false, config.lastPointermove = { x: 0, y: 0 };",
    chars! "      config.x = 0, config.y = 0;",
    chars! "      // element.style.transform = 'translateX(0px) translateY(0px) scale(1)';",
    chars! "      const element = document.getElementById('container');",
    chars! "      element.style.transform = 'translateX(0px) translateY(0px) scale(1)';",
    chars! "      // console.log(element.style.transform);",
    chars! "    }",
    chars! "",
    chars! "    function render() {",
    chars! "      const tree = collapsibleTree(config.current, { tree: config.tree_or_cluster, dx: con" ++
      chars! "fig.ast_width, dy: config.ast_height });",
    chars! "      const dom = document.getElementById('tree');",
    chars! "      dom.innerHTML = '';",
    chars! "      dom.appendChild(tree);",
    chars! "      reset();",
    chars! "    }",
    chars! "",
    chars! "",
    chars! "  </script>",
    chars! "",
    chars! "</body>",
    chars! ""]

/-- `parser2.html`, the whole file -/
def parser2 : Str := parser21 ++ parser22 ++ parser23 ++ parser24 ++ parser25 ++ parser26 ++ parser27 ++ parser28 ++ parser29 ++ parser210 ++ parser211 ++ parser212 ++ parser213 ++ chars! "</html>"

/-- `tests/lexer_generate/lexer.rs:1-40` -/
def generatedLexer1 : Str :=
  lines [
    chars! "",
    chars! "",
    chars! "",
    chars! "use regex::Regex;",
    chars! "",
    chars! "use syntaxis::runtime::{lexer::{Lexer, Error}, token::{Token, Position}};",
    chars! "",
    chars! "",
    chars! "",
    chars! "pub struct SyntaxisLexer {",
    chars! "  pub input: String,",
    chars! "  pub cursor: usize, // 每次都匹配 input[cursor..]",
    chars! "  pub regex_list: Vec<regex::Regex>,",
    chars! "  pub token_names: Vec<&'static str>,",
    chars! "  pub token_index: usize,",
    chars! "  pub position: Position,",
    chars! "}",
    chars! "",
    chars! "#[allow(dead_code)]",
    chars! "impl SyntaxisLexer {",
    chars! "  // 前两个是开始符号和结束符号",
    chars! "  pub const _START: usize = 0;",
    chars! "  pub const _STOP: usize = 1;",
    chars! "",
    chars! "  // 从这里开始使用模板",
    chars! "  ",
    chars! "  pub const RULE_REF: usize = 2;",
    chars! "  pub const TOKEN_REF: usize = 3;",
    chars! "  pub const COLON: usize = 4;",
    chars! "  pub const SEMI: usize = 5;",
    chars! "  pub const OR: usize = 6;",
    chars! "  pub const EPSILON: usize = 7;",
    chars! "  pub const STAR: usize = 8;",
    chars! "  pub const PLUS: usize = 9;",
    chars! "  pub const QUESTION: usize = 10;",
    chars! "  pub const LPAREN: usize = 11;",
    chars! "  pub const RPAREN: usize = 12;",
    chars! "  pub const STRING_LITERAL: usize = 13;",
    chars! "  pub const REGULAR_LITERAL: usize = 14;",
    chars! "  pub const WHITE_SPACE: usize = 15;"]

/-- `tests/lexer_generate/lexer.rs:41-80` -/
def generatedLexer2 : Str :=
  lines [
    chars! "",
    chars! "",
    chars! "  pub fn new(input: &str) -> Self {",
    chars! "    let regex_list = vec![",
    chars! "",
    chars! "      // 这里也需要使用模板",
    chars! "      ",
    chars! "      Regex::new(r####\"^([a-z][a-zA-Z0-9_]+)\"####).unwrap(), // RULE_REF",
    chars! "      Regex::new(r####\"^([A-Z][a-zA-Z0-9_]+)\"####).unwrap(), // TOKEN_REF",
    chars! "      Regex::new(r####\"^(::=|:=|->|=>|:|=)\"####).unwrap(), // COLON",
    chars! "      Regex::new(r####\"^(;)\"####).unwrap(), // SEMI",
    chars! "      Regex::new(r####\"^(\\|)\"####).unwrap(), // OR",
    chars! "      Regex::new(r####\"^(ε|epsilon)\"####).unwrap(), // EPSILON",
    chars! "      Regex::new(r####\"^(\\*)\"####).unwrap(), // STAR",
    chars! "      Regex::new(r####\"^(\\+)\"####).unwrap(), // PLUS",
    chars! "      Regex::new(r####\"^(\\?)\"####).unwrap(), // QUESTION",
    chars! "      Regex::new(r####\"^(\\()\"####).unwrap(), // LPAREN",
    chars! "      Regex::new(r####\"^(\\))\"####).unwrap(), // RPAREN",
    chars! "      Regex::new(r####\"^('([^\\a\\d\\n\\r\\t\\f\\v\\\\']|(\\\\\\\\|\\\\'|\\\\a|\\\\d|\\\\n|\\\\r|\\\\t|\\\\f|\\\\v|\\\\u\\" ++
      chars! "{(0x|0)?[a-f0-9]+\\})|\\d)*')\"####).unwrap(), // STRING_LITERAL",
    chars! "      Regex::new(r####\"^(/(\\\\/|[^/])+/)\"####).unwrap(), // REGULAR_LITERAL",
    chars! "      Regex::new(r####\"^([ \\r\\n\\t\\f]+)\"####).unwrap(), // WHITE_SPACE",
    chars! "    ",
    chars! "    ];",
    chars! "    ",
    chars! "    // 同样使用模板",
    chars! "    let token_names = vec![",
    chars! "      \"_START\", \"_STOP\", ",
    chars! "      \"RULE_REF\", \"TOKEN_REF\", \"COLON\", \"SEMI\", \"OR\", \"EPSILON\", \"STAR\", \"PLUS\", \"QUESTION" ++
      chars! "\", \"LPAREN\", \"RPAREN\", \"STRING_LITERAL\", \"REGULAR_LITERAL\", \"WHITE_SPACE\", ",
    chars! "    ];",
    chars! "",
    chars! "    SyntaxisLexer { input: input.to_owned(), cursor: 0, regex_list, token_names, token_ind" ++
      chars! "ex: 0, position: Position { line: 0, char_position: 0 } }",
    chars! "  }",
    chars! "",
    chars! "",
    chars! "",
    chars! "}",
    chars! "",
    chars! "",
    chars! "impl Lexer for SyntaxisLexer {",
    chars! ""]

/-- `tests/lexer_generate/lexer.rs:81-120` -/
def generatedLexer3 : Str :=
  lines [
    chars! "",
    chars! "  fn scan(&mut self) -> Result<Token, Error> {",
    chars! "    if self.cursor > self.input.len() { return Err(Error {}) }",
    chars! "    else if self.cursor >= self.input.len() {",
    chars! "      self.cursor += 10;",
    chars! "      return Ok(Token {",
    chars! "        token_type: 1,",
    chars! "        token_name: \"_STOP\".to_owned(),",
    chars! "  ",
    chars! "        start: self.position.clone(),",
    chars! "        stop: self.position.clone(),",
    chars! "        ",
    chars! "        channel: 0,",
    chars! "        text: \"_STOP\".to_owned(),",
    chars! "        token_index: self.token_index,",
    chars! "        char_start_index: self.cursor,",
    chars! "        char_stop_index: self.cursor,",
    chars! "      });",
    chars! "    }",
    chars! "    let mut len = 0;",
    chars! "    let mut token_type = 0;",
    chars! "",
    chars! "    for i in 0..self.regex_list.len() {",
    chars! "      let result = self.regex_list[i].find_at(&self.input[self.cursor..], 0) ;",
    chars! "      if let Some(result) = result {",
    chars! "        if result.end() > len {",
    chars! "          len = result.end();",
    chars! "          token_type = i+2;",
    chars! "        }",
    chars! "      }",
    chars! "    }",
    chars! "",
    chars! "    if token_type <= 0 { return Err(Error {}) }",
    chars! "    let text = String::from(&self.input[self.cursor..self.cursor+len]);",
    chars! "    let lines: Vec<_> = text.split(\"\\n\").collect();",
    chars! "    let new_pos;",
    chars! "    if lines.len() <= 1 {",
    chars! "      // 没有跨行",
    chars! "      new_pos = Position {",
    chars! "        line: self.position.line,"]

/-- `tests/lexer_generate/lexer.rs:121-160` -/
def generatedLexer4 : Str :=
  lines [
    chars! "        char_position: self.position.char_position + len",
    chars! "      }",
    chars! "    }",
    chars! "    else {",
    chars! "      // 跨行",
    chars! "      new_pos = Position {",
    chars! "        line: self.position.line + lines.len()-1,",
    chars! "        char_position: lines.last().unwrap().len(),",
    chars! "      }",
    chars! "    }",
    chars! "",
    chars! "",
    chars! "",
    chars! "    let token = Token {",
    chars! "      token_type,",
    chars! "      token_name: String::from(self.token_names[token_type]),",
    chars! "",
    chars! "      start: self.position.clone(),",
    chars! "      stop: new_pos.clone(),",
    chars! "      ",
    chars! "      channel: 0,",
    chars! "      text,",
    chars! "      token_index: self.token_index,",
    chars! "      char_start_index: self.cursor,",
    chars! "      char_stop_index: self.cursor + len,",
    chars! "    };",
    chars! "",
    chars! "    self.cursor += len;",
    chars! "    self.token_index += 1;",
    chars! "    self.position = new_pos;",
    chars! "    return Ok(token);",
    chars! "",
    chars! "  }",
    chars! "",
    chars! "  fn scan_all_on_channel_tokens(&mut self, channel: usize) -> Vec<Token> {",
    chars! "    let mut result = Vec::new();",
    chars! "    while let Ok(token) = self.scan() {",
    chars! "      if token.token_type == SyntaxisLexer::WHITE_SPACE { continue; }",
    chars! "      if token.channel == channel {",
    chars! "        result.push(token);"]

/-- `tests/lexer_generate/lexer.rs:161-170` -/
def generatedLexer5 : Str :=
  lines [
    chars! "      }",
    chars! "    }",
    chars! "    if self.cursor < self.input.len() {",
    chars! "      println!(\"{}\", &self.input[self.cursor..]);",
    chars! "    }",
    chars! "    result",
    chars! "  }",
    chars! "}",
    chars! "",
    chars! ""]

/-- `tests/lexer_generate/lexer.rs`, the whole file -/
def generatedLexer : Str := generatedLexer1 ++ generatedLexer2 ++ generatedLexer3 ++ generatedLexer4 ++ generatedLexer5

/-- `tests/first_set_test.rs:8-45`, `tests/follow_set_test.rs:4-41`: the productions, by name; rules without a name are
written as numbers -/
def productions : List (Str × List Str) := [
  (chars! "rule_list", [chars! "10"]),
  (chars! "10", []),
  (chars! "10", [chars! "9", chars! "10"]),
  (chars! "9", [chars! "lexer_rule"]),
  (chars! "9", [chars! "parser_rule"]),
  (chars! "parser_rule", [chars! "RULE_REF", chars! "COLON", chars! "block", chars! "SEMI"]),
  (chars! "lexer_rule", [chars! "TOKEN_REF", chars! "COLON", chars! "regular", chars! "SEMI"]),
  (chars! "block", [chars! "alternative", chars! "12"]),
  (chars! "12", [chars! "11", chars! "12"]),
  (chars! "12", []),
  (chars! "11", [chars! "OR", chars! "alternative"]),
  (chars! "alternative", [chars! "epsilon"]),
  (chars! "alternative", [chars! "13"]),
  (chars! "epsilon", [chars! "EPSILON"]),
  (chars! "element", [chars! "14", chars! "15"]),
  (chars! "14", [chars! "LPAREN", chars! "block", chars! "RPAREN"]),
  (chars! "14", [chars! "RULE_REF"]),
  (chars! "14", [chars! "TOKEN_REF"]),
  (chars! "14", [chars! "STRING_LITERAL"]),
  (chars! "regular", [chars! "REGULAR_LITERAL"]),
  (chars! "16", [chars! "PLUS"]),
  (chars! "16", [chars! "STAR"]),
  (chars! "16", [chars! "QUESTION"]),
  (chars! "17", [chars! "QUESTION"]),
  (chars! "17", []),
  (chars! "ebnf_suffix", [chars! "16", chars! "17"]),
  (chars! "15", [chars! "ebnf_suffix"]),
  (chars! "15", []),
  (chars! "13", [chars! "element"]),
  (chars! "13", [chars! "element", chars! "13"])]

/-- `tests/first_set_test.rs:47-84`: FIRST of each rule, and whether `ε` is listed -/
def first : List (Str × List Str × Bool) := [
  (chars! "element", [chars! "STRING_LITERAL", chars! "TOKEN_REF", chars! "RULE_REF", chars! "LPAREN"], false),
  (chars! "epsilon", [chars! "EPSILON"], false),
  (chars! "16", [chars! "QUESTION", chars! "PLUS", chars! "STAR"], false),
  (chars! "14", [chars! "TOKEN_REF", chars! "RULE_REF", chars! "LPAREN", chars! "STRING_LITERAL"], false),
  (chars! "regular", [chars! "REGULAR_LITERAL"], false),
  (chars! "17", [chars! "QUESTION"], true),
  (chars! "ebnf_suffix", [chars! "QUESTION", chars! "PLUS", chars! "STAR"], false),
  (chars! "9", [chars! "TOKEN_REF", chars! "RULE_REF"], false),
  (chars! "11", [chars! "OR"], false),
  (chars! "rule_list", [chars! "RULE_REF", chars! "TOKEN_REF"], true),
  (chars! "parser_rule", [chars! "RULE_REF"], false),
  (chars! "15", [chars! "QUESTION", chars! "STAR", chars! "PLUS"], true),
  (chars! "13", [chars! "TOKEN_REF", chars! "LPAREN", chars! "STRING_LITERAL", chars! "RULE_REF"], false),
  (chars! "block", [chars! "TOKEN_REF", chars! "STRING_LITERAL", chars! "RULE_REF", chars! "EPSILON", chars! "LPAREN"], false),
  (chars! "alternative", [chars! "EPSILON", chars! "TOKEN_REF", chars! "RULE_REF", chars! "STRING_LITERAL", chars! "LPAREN"], false),
  (chars! "10", [chars! "TOKEN_REF", chars! "RULE_REF"], true),
  (chars! "lexer_rule", [chars! "TOKEN_REF"], false),
  (chars! "12", [chars! "OR"], true)]

/-- `tests/follow_set_test.rs:43-95`: FOLLOW of each rule -/
def follow : List (Str × List Str) := [
  (chars! "rule_list", [chars! "_STOP"]),
  (chars! "alternative", [chars! "OR", chars! "SEMI", chars! "RPAREN"]),
  (chars! "parser_rule", [chars! "_STOP", chars! "TOKEN_REF", chars! "RULE_REF"]),
  (chars! "block", [chars! "SEMI", chars! "RPAREN"]),
  (chars! "epsilon", [chars! "SEMI", chars! "RPAREN", chars! "OR"]),
  (chars! "element", [chars! "RPAREN", chars! "SEMI", chars! "LPAREN", chars! "OR", chars! "STRING_LITERAL", chars! "TOKEN_REF", chars! "RULE_REF"]),
  (chars! "regular", [chars! "SEMI"]),
  (chars! "ebnf_suffix", [chars! "TOKEN_REF", chars! "RULE_REF", chars! "LPAREN", chars! "STRING_LITERAL", chars! "OR", chars! "RPAREN", chars! "SEMI"]),
  (chars! "lexer_rule", [chars! "_STOP", chars! "TOKEN_REF", chars! "RULE_REF"]),
  (chars! "16", [chars! "RPAREN", chars! "SEMI", chars! "QUESTION", chars! "RULE_REF", chars! "OR", chars! "TOKEN_REF", chars! "LPAREN", chars! "STRING_LITERAL"]),
  (chars! "9", [chars! "TOKEN_REF", chars! "_STOP", chars! "RULE_REF"]),
  (chars! "14", [chars! "STRING_LITERAL", chars! "STAR", chars! "RULE_REF", chars! "RPAREN", chars! "SEMI", chars! "OR", chars! "QUESTION", chars! "LPAREN", chars! "PLUS", chars! "TOKEN_REF"]),
  (chars! "12", [chars! "SEMI", chars! "RPAREN"]),
  (chars! "11", [chars! "RPAREN", chars! "OR", chars! "SEMI"]),
  (chars! "17", [chars! "TOKEN_REF", chars! "RPAREN", chars! "SEMI", chars! "STRING_LITERAL", chars! "OR", chars! "RULE_REF", chars! "LPAREN"]),
  (chars! "15", [chars! "OR", chars! "RPAREN", chars! "SEMI", chars! "LPAREN", chars! "TOKEN_REF", chars! "RULE_REF", chars! "STRING_LITERAL"]),
  (chars! "10", [chars! "_STOP"]),
  (chars! "13", [chars! "SEMI", chars! "RPAREN", chars! "OR"])]

end Syntaxis.Artefacts
